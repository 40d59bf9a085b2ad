import Verif.Model.Mpi
import Verif.Proofs.KMap

/-! Lemmas on the MPI model: the exchanges deliver the concatenation to every rank. -/

namespace Nlcg
variable {β : Type}

/-- Each rank `i` holds a buffer of length `total` whose block at the running offset is `vs[i]`. -/
inductive Placed (total : Nat) : Nat → List (List β) → List (List β) → Prop
  | nil (acc) : Placed total acc [] []
  | cons {acc : Nat} {pre v post : List β} {bs vs : List (List β)}
      (hpre : pre.length = acc) (hlen : (pre ++ v ++ post).length = total)
      (h : Placed total (acc + v.length) bs vs) :
      Placed total acc ((pre ++ v ++ post) :: bs) (v :: vs)

theorem ownBlocks_placed {total acc : Nat} {bs vs : List (List β)} (h : Placed total acc bs vs) :
    ownBlocks bs (exclScan acc (vs.map List.length)) (vs.map List.length) = .ok vs := by
  induction h with
  | nil acc => rfl
  | @cons acc pre v post bs vs hpre hlen h ih =>
    simp only [List.map_cons, exclScan, ownBlocks]
    have : slice (pre ++ v ++ post) acc v.length = .ok v := by
      unfold slice
      rw [if_pos (by simp; omega)]
      subst hpre
      simp
    rw [this, Res.bind_ok, ih]; rfl

theorem writeBlocks_consecutive (vs : List (List β)) (acc : Nat) (buf : List β)
    (h : acc + vs.flatten.length ≤ buf.length) :
    writeBlocks buf vs (exclScan acc (vs.map List.length)) =
      .ok (buf.take acc ++ vs.flatten ++ buf.drop (acc + vs.flatten.length)) := by
  induction vs generalizing acc buf with
  | nil => simp [writeBlocks, exclScan]
  | cons v vs ih =>
    simp only [List.map_cons, exclScan, writeBlocks, List.flatten_cons, List.length_append] at *
    have hw : writeAt buf acc v = .ok (buf.take acc ++ v ++ buf.drop (acc + v.length)) := by
      unfold writeAt; rw [if_pos (by omega)]
    rw [hw, Res.bind_ok, ih]
    · have h1 : (buf.take acc).length = acc := by simp; omega
      have e1 : List.take (acc + v.length) (buf.take acc ++ v ++ buf.drop (acc + v.length)) =
          buf.take acc ++ v := by
        rw [List.take_append_of_le_length (by simp; omega)]
        rw [List.take_of_length_le (by simp)]
      have e2 : List.drop (acc + v.length + vs.flatten.length)
          (buf.take acc ++ v ++ buf.drop (acc + v.length)) =
          buf.drop (acc + (v.length + vs.flatten.length)) := by
        have : (buf.take acc ++ v).length = acc + v.length := by simp; omega
        rw [List.drop_append, List.drop_of_length_le (by omega), this]
        simp only [List.nil_append, List.drop_drop]
        congr 1; omega
      rw [e1, e2]; simp
    · simp [-List.length_flatten]; omega

theorem forRanks_ok {γ : Type} {f : β → Res γ} {g : β → γ} (l : List β)
    (h : ∀ x ∈ l, f x = .ok (g x)) : forRanks f l = .ok (l.map g) := by
  induction l with
  | nil => rfl
  | cons x l ih =>
    simp only [forRanks, h x (by simp), Res.bind_ok, ih (fun y hy => h y (by simp [hy]))]
    rfl

theorem placed_length {total acc : Nat} {bs vs : List (List β)} (h : Placed total acc bs vs) :
    bs.length = vs.length ∧ ∀ b ∈ bs, b.length = total := by
  induction h with
  | nil acc => simp
  | cons hpre hlen h ih =>
    refine ⟨by simp [ih.1], ?_⟩
    intro b hb
    rcases List.mem_cons.mp hb with rfl | hb
    · exact hlen
    · exact ih.2 b hb

theorem map_const_of_length {γ δ : Type} {l : List γ} {n : Nat} (h : l.length = n) (c : δ) :
    l.map (fun _ => c) = List.replicate n c := by
  subst h; induction l with
  | nil => rfl
  | cons x l ih => simp [List.replicate_succ, ih]

theorem allgatherv_placed {bs vs : List (List β)} (h : Placed vs.flatten.length 0 bs vs) :
    allgatherv bs (vs.map List.length) = .ok (List.replicate vs.length vs.flatten) := by
  unfold allgatherv
  simp only [ownBlocks_placed h, Res.bind_ok]
  obtain ⟨hl, hb⟩ := placed_length h
  rw [forRanks_ok (g := fun _ => vs.flatten)]
  · rw [map_const_of_length hl]
  · intro b hbm
    rw [writeBlocks_consecutive _ _ _ (by rw [hb b hbm]; simp)]
    have := hb b hbm
    simp only [List.take_zero, List.nil_append, Nat.zero_add]
    rw [List.drop_of_length_le (by omega)]; simp

theorem set_replicate {γ : Type} (N r : Nat) (z x : γ) (h : r < N) :
    (List.replicate N z).set r x =
      List.replicate r z ++ [x] ++ List.replicate (N - r - 1) z := by
  apply List.ext_getElem
  · simp; omega
  · intro i h1 h2
    simp only [List.getElem_set, List.getElem_replicate]
    rcases Nat.lt_trichotomy r i with hlt | heq | hgt
    · rw [if_neg (by omega), List.getElem_append_right (by simp; omega)]; simp
    · subst heq
      rw [if_pos rfl, List.getElem_append_left (by simp), List.getElem_append_right (by simp)]
      simp
    · rw [if_neg (by omega), List.getElem_append_left (by simp; omega),
        List.getElem_append_left (by simp; omega)]
      simp

theorem placed_counts (N r : Nat) (ns : List Nat) (h : r + ns.length = N) :
    Placed N r (countBuffers N r ns) (ns.map fun n => [n]) := by
  induction ns generalizing r with
  | nil => exact Placed.nil _
  | cons n ns ih =>
    simp only [List.length_cons] at h
    simp only [countBuffers, List.map_cons]
    rw [set_replicate N r 0 n (by omega)]
    exact Placed.cons (by simp) (by simp; omega) (ih (r + 1) (by omega))

theorem flatten_singletons {γ : Type} (l : List γ) : (l.map fun n => [n]).flatten = l := by
  induction l with
  | nil => rfl
  | cons x l ih => simp [ih]

theorem gatherCounts_eq (ns : List Nat) :
    gatherCounts ns = .ok (List.replicate ns.length ns) := by
  unfold gatherCounts
  have hf := flatten_singletons ns
  have := allgatherv_placed (bs := countBuffers ns.length 0 ns) (vs := ns.map fun n => [n])
    (by rw [hf]; exact placed_counts _ _ _ (by omega))
  rw [hf] at this
  have hl : (ns.map fun n => [n]).map List.length = List.replicate ns.length 1 := by
    rw [List.map_map]
    exact map_const_of_length rfl 1
  rw [hl] at this
  simpa using this

/-- offset of the first block after `pre` -/
theorem exclScan_getElem (pre : List Nat) (n : Nat) (post : List Nat) (acc : Nat) :
    (exclScan acc (pre ++ n :: post))[pre.length]? = some (acc + pre.sum) := by
  induction pre generalizing acc with
  | nil => simp [exclScan]
  | cons p pre ih =>
    simp only [List.cons_append, exclScan, List.length_cons, List.getElem?_cons_succ]
    rw [ih]; simp; omega

theorem sendBuffers_placed [Inhabited β] (pre vs : List (List β)) :
    ∃ bs, sendBuffers pre.length vs (List.replicate vs.length ((pre ++ vs).map List.length)) =
        .ok bs ∧ Placed (pre ++ vs).flatten.length pre.flatten.length bs vs := by
  induction vs generalizing pre with
  | nil => exact ⟨[], rfl, Placed.nil _⟩
  | cons v vs ih =>
    obtain ⟨bs, hbs, hp⟩ := ih (pre ++ [v])
    have hcat : pre ++ [v] ++ vs = pre ++ v :: vs := by simp
    rw [hcat] at hbs hp
    have hlen : (pre ++ [v]).length = pre.length + 1 := by simp
    rw [hlen] at hbs
    have hoff : vecAt (exclScan 0 ((pre ++ v :: vs).map List.length)) pre.length =
        .ok pre.flatten.length := by
      have := exclScan_getElem (pre.map List.length) v.length (vs.map List.length) 0
      simp only [List.length_map] at this
      simp only [vecAt, List.map_append, List.map_cons, this, List.length_flatten]
      simp
    have hsum : ((pre ++ v :: vs).map List.length).sum = (pre ++ v :: vs).flatten.length := by
      rw [List.length_flatten]
    have hw : writeAt (List.replicate ((pre ++ v :: vs).map List.length).sum (default : β))
        pre.flatten.length v =
        .ok (List.replicate pre.flatten.length default ++ v ++
          List.replicate vs.flatten.length default) := by
      unfold writeAt
      rw [if_pos (by rw [hsum]; simp)]
      congr 2
      · rw [hsum, List.take_replicate]; simp
      · rw [hsum, List.drop_replicate]; simp
        omega
    refine ⟨(List.replicate pre.flatten.length default ++ v ++
          List.replicate vs.flatten.length default) :: bs, ?_, ?_⟩
    · simp only [List.length_cons, List.replicate_succ, sendBuffers, hoff, hw, hbs, Res.bind_ok,
        Res.pure_eq]
    · refine Placed.cons (by simp) (by simp) ?_
      have : pre.flatten.length + v.length = (pre ++ [v]).flatten.length := by simp
      rw [this]; exact hp

theorem exchange_eq [Inhabited β] (locals : List (List β)) :
    exchange locals =
      .ok (List.replicate locals.length (locals.map List.length, locals.flatten)) := by
  unfold exchange
  rw [gatherCounts_eq]
  simp only [List.length_map, Res.bind_ok]
  obtain ⟨bs, hbs, hp⟩ := sendBuffers_placed [] locals
  simp only [List.length_nil, List.nil_append] at hbs hp
  rw [hbs, Res.bind_ok]
  have hg := allgatherv_placed hp
  cases locals with
  | nil => rfl
  | cons v vs =>
    simp only [List.length_cons, List.replicate_succ] at *
    rw [hg]
    simp [List.zip_replicate]

theorem cutBlocks_flatten (vs : List (List β)) (pre : List β) :
    cutBlocks (pre ++ vs.flatten) pre.length (vs.map List.length) = .ok vs := by
  induction vs generalizing pre with
  | nil => rfl
  | cons v vs ih =>
    simp only [List.map_cons, cutBlocks, List.flatten_cons]
    have : slice (pre ++ (v ++ vs.flatten)) pre.length v.length = .ok v := by
      unfold slice; rw [if_pos (by simp)]; simp
    have h2 := ih (pre ++ v)
    simp only [List.length_append, List.append_assoc] at h2
    simp [this, h2]

/-- `_allgather`: every rank receives every rank's vector. -/
theorem allgatherVec_eq [Inhabited β] (locals : List (List β)) :
    allgatherVec locals = .ok (List.replicate locals.length locals) := by
  unfold allgatherVec
  rw [exchange_eq, Res.bind_ok, forRanks_ok (g := fun _ => locals)]
  · simp
  · intro p hp
    rw [List.eq_of_mem_replicate hp]
    simpa using cutBlocks_flatten locals []

section maps
variable {κ : Type} [LinearOrder κ] [Inhabited κ] [Inhabited β]

theorem allgatherScalar_eq (locals : List (KMap κ β)) :
    allgatherScalar locals =
      .ok (List.replicate locals.length (KMap.ofRange locals.flatten)) := by
  unfold allgatherScalar
  rw [exchange_eq]; simp

theorem packBlocks_ok (ndebug : Bool) (vs : List (List β)) (acc : Nat) (buf : List β)
    (h : acc + vs.flatten.length ≤ buf.length)
    (hne : ndebug = true ∨ ∀ v ∈ vs, v ≠ []) :
    packBlocks ndebug buf vs (exclScan acc (vs.map List.length)) =
      .ok (buf.take acc ++ vs.flatten ++ buf.drop (acc + vs.flatten.length)) := by
  induction vs generalizing acc buf with
  | nil => simp [packBlocks]
  | cons v vs ih =>
    have h0 := writeBlocks_consecutive (v :: vs) acc buf h
    simp only [List.map_cons, exclScan, writeBlocks] at h0
    simp only [List.map_cons, exclScan, packBlocks]
    have hass : (if ndebug || decide (acc < buf.length) then .ok () else .abort : Res Unit) = .ok () := by
      rcases hne with h1 | h1
      · simp [h1]
      · have := h1 v (by simp)
        have : 0 < v.length := List.length_pos_iff.mpr this
        rw [if_pos]; simp; right
        simp at h; omega
    simp only [List.flatten_cons, List.length_append] at h
    have hw : writeAt buf acc v = .ok (buf.take acc ++ v ++ buf.drop (acc + v.length)) := by
      unfold writeAt; rw [if_pos (by omega)]
    rw [hass, Res.bind_ok, hw, Res.bind_ok]
    rw [hw, Res.bind_ok, writeBlocks_consecutive] at h0
    · rw [ih, ← h0]
      · simp [-List.length_flatten]; omega
      · rcases hne with h1 | h1
        · exact Or.inl h1
        · exact Or.inr fun w hw => h1 w (by simp [hw])
    · simp [-List.length_flatten]; omega

theorem blockOffsets_getElem (pre : List (List Nat)) (x : List Nat) (post : List (List Nat))
    (acc : Nat) :
    (blockOffsets acc (pre ++ x :: post))[pre.length]? =
      some (exclScan (acc + (pre.map List.sum).sum) x) := by
  induction pre generalizing acc with
  | nil => simp [blockOffsets]
  | cons p pre ih =>
    simp only [List.cons_append, blockOffsets, List.length_cons, List.getElem?_cons_succ]
    rw [ih]; simp [Nat.add_assoc]

/-- block sizes of one rank -/
def blockSizes (m : KMap κ (List β)) : List Nat := m.map fun e => e.2.length
/-- concatenated contents of one rank -/
def blockData (m : KMap κ (List β)) : List β := (m.map Prod.snd).flatten

omit [Inhabited κ] [LinearOrder κ] [Inhabited β] in
theorem blockSizes_sum (m : KMap κ (List β)) : (blockSizes m).sum = (blockData m).length := by
  simp [blockSizes, blockData, List.length_flatten, List.map_map, Function.comp_def]

omit [Inhabited κ] [LinearOrder κ] [Inhabited β] in
theorem sum_blockSizes (ms : List (KMap κ (List β))) :
    ((ms.map blockSizes).map List.sum).sum = (ms.map blockData).flatten.length := by
  induction ms with
  | nil => rfl
  | cons m ms ih =>
    simp only [List.map_cons, List.sum_cons, ih, List.flatten_cons, List.length_append,
      blockSizes_sum]

omit [LinearOrder κ] [Inhabited κ] in
theorem packAll_placed (ndebug : Bool) (pre ms : List (KMap κ (List β)))
    (hne : ndebug = true ∨ ∀ m ∈ ms, ∀ e ∈ m, e.2 ≠ []) :
    ∃ bs, packAll ndebug pre.length ms
        (List.replicate ms.length ((pre ++ ms).map blockSizes)) = .ok bs ∧
      Placed ((pre ++ ms).map blockData).flatten.length (pre.map blockData).flatten.length bs
        (ms.map blockData) := by
  induction ms generalizing pre with
  | nil => exact ⟨[], rfl, Placed.nil _⟩
  | cons m ms ih =>
    obtain ⟨bs, hbs, hp⟩ := ih (pre ++ [m]) (by
      rcases hne with h | h
      · exact Or.inl h
      · exact Or.inr fun m' hm' => h m' (by simp [hm']))
    have hcat : pre ++ [m] ++ ms = pre ++ m :: ms := by simp
    rw [hcat] at hbs hp
    have hlen : (pre ++ [m]).length = pre.length + 1 := by simp
    rw [hlen] at hbs
    have hoffs : vecAt (blockOffsets 0 ((pre ++ m :: ms).map blockSizes)) pre.length =
        .ok (exclScan (pre.map blockData).flatten.length ((m.map Prod.snd).map List.length)) := by
      have := blockOffsets_getElem (pre.map blockSizes) (blockSizes m) (ms.map blockSizes) 0
      simp only [List.length_map] at this
      simp only [vecAt, List.map_append, List.map_cons, this]
      rw [sum_blockSizes]
      simp [blockSizes, List.map_map, Function.comp_def]
    have hoffs' : (if m.isEmpty then .ok []
          else vecAt (blockOffsets 0 ((pre ++ m :: ms).map blockSizes)) pre.length :
          Res (List Nat)) =
        .ok (exclScan (pre.map blockData).flatten.length ((m.map Prod.snd).map List.length)) := by
      cases m with
      | nil => simp [exclScan]
      | cons e m => rw [if_neg (by simp)]; exact hoffs
    have hpk := packBlocks_ok ndebug (m.map Prod.snd) (pre.map blockData).flatten.length
      (List.replicate ((pre ++ m :: ms).map blockData).flatten.length (default : β))
      (by simp [blockData]) (by
        rcases hne with h | h
        · exact Or.inl h
        · refine Or.inr ?_
          intro v hv
          obtain ⟨e, he, rfl⟩ := List.mem_map.mp hv
          exact h m (by simp) e he)
    have hbuf : List.take (pre.map blockData).flatten.length
          (List.replicate ((pre ++ m :: ms).map blockData).flatten.length (default : β)) ++
        (m.map Prod.snd).flatten ++
        List.drop ((pre.map blockData).flatten.length + (m.map Prod.snd).flatten.length)
          (List.replicate ((pre ++ m :: ms).map blockData).flatten.length (default : β)) =
        List.replicate (pre.map blockData).flatten.length default ++ blockData m ++
          List.replicate (ms.map blockData).flatten.length default := by
      rw [List.take_replicate, List.drop_replicate]
      congr 2
      · congr 1; simp
      · simp [blockData]; omega
    rw [hbuf] at hpk
    refine ⟨(List.replicate (pre.map blockData).flatten.length default ++ blockData m ++
          List.replicate (ms.map blockData).flatten.length default) :: bs, ?_, ?_⟩
    · simp only [List.length_cons, List.replicate_succ, packAll]
      rw [hoffs', Res.bind_ok, sum_blockSizes, hpk, Res.bind_ok, hbs]
      rfl
    · refine Placed.cons (by simp) (by simp) ?_
      have : (pre.map blockData).flatten.length + (blockData m).length =
          ((pre ++ [m]).map blockData).flatten.length := by simp
      rw [this]; exact hp

omit [LinearOrder κ] [Inhabited κ] [Inhabited β] in
theorem readBlocks_ok (m : KMap κ (List β)) (pre post : List β) :
    readBlocks (pre ++ blockData m ++ post) (KMap.keys m) (exclScan pre.length (blockSizes m))
      (blockSizes m) = .ok m := by
  induction m generalizing pre with
  | nil => rfl
  | cons e m ih =>
    obtain ⟨k, v⟩ := e
    have hd : blockData ((k, v) :: m) = v ++ blockData m := by simp [blockData]
    have hs : blockSizes ((k, v) :: m) = v.length :: blockSizes m := rfl
    have hk : KMap.keys ((k, v) :: m) = k :: KMap.keys m := rfl
    rw [hd, hs, hk]
    simp only [exclScan, readBlocks]
    have : slice (pre ++ (v ++ blockData m) ++ post) pre.length v.length = .ok v := by
      unfold slice; rw [if_pos (by simp)]; simp
    have h2 := ih (pre ++ v)
    simp only [List.length_append, List.append_assoc] at h2 this ⊢
    simp [this, h2]

omit [LinearOrder κ] [Inhabited κ] [Inhabited β] in
theorem readAll_ok (ms : List (KMap κ (List β))) (pre : List β) :
    readAll (pre ++ (ms.map blockData).flatten) (ms.map KMap.keys)
      (blockOffsets pre.length (ms.map blockSizes)) (ms.map blockSizes) = .ok ms.flatten := by
  induction ms generalizing pre with
  | nil => rfl
  | cons m ms ih =>
    simp only [List.map_cons, blockOffsets, readAll, List.flatten_cons]
    have h1 := readBlocks_ok m pre (ms.map blockData).flatten
    simp only [List.append_assoc] at h1
    have h2 := ih (pre ++ blockData m)
    simp only [List.append_assoc, List.length_append] at h2
    rw [h1, Res.bind_ok, blockSizes_sum, h2]; rfl

theorem unpackAll_ok (n : Nat) (ms : List (KMap κ (List β))) :
    unpackAll (List.replicate n (ms.map blockData).flatten) (List.replicate n (ms.map KMap.keys))
      (List.replicate n (ms.map blockSizes)) =
      .ok (List.replicate n (KMap.setAll ms.flatten [])) := by
  induction n with
  | zero => rfl
  | succ n ih =>
    simp only [List.replicate_succ, unpackAll]
    have := readAll_ok ms ([] : List β)
    simp only [List.nil_append, List.length_nil] at this
    rw [this, Res.bind_ok, ih]; rfl

theorem allgatherView_eq (ndebug : Bool) (locals : List (KMap κ (List β)))
    (hne : ndebug = true ∨ ∀ m ∈ locals, ∀ e ∈ m, e.2 ≠ []) :
    allgatherView ndebug locals =
      .ok (List.replicate locals.length (KMap.setAll locals.flatten [])) := by
  unfold allgatherView
  have hbs : (locals.map fun m => m.map fun e => e.2.length) = locals.map blockSizes := rfl
  rw [allgatherVec_eq, Res.bind_ok, hbs, allgatherVec_eq, Res.bind_ok]
  simp only [List.length_map]
  obtain ⟨bs, hbs, hp⟩ := packAll_placed ndebug [] locals hne
  simp only [List.length_nil, List.nil_append] at hbs hp
  rw [hbs, Res.bind_ok]
  have hg := allgatherv_placed (vs := locals.map blockData) (by simpa using hp)
  have hsz : (locals.map blockData).map List.length = (locals.map blockSizes).map List.sum := by
    simp [List.map_map, Function.comp_def, blockSizes_sum]
  rw [hsz, List.length_map] at hg
  have hu := unpackAll_ok locals.length locals
  cases locals with
  | nil => rfl
  | cons m ms =>
    simp only [List.length_cons, List.replicate_succ] at *
    rw [hg, Res.bind_ok, hu]

end maps
end Nlcg

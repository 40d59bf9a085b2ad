import Verif.Spec.StepFile
import Verif.Proofs.KMap
import Mathlib.Tactic.Common
import Mathlib.Tactic.SplitIfs

/-!
# The text of JSON values can be read back
-/

namespace Nlcg
open Spec

mutual
/-- texts are valid and numbers are written with the right characters -/
def Json.Good : Json → Prop
  | .null => True
  | .num t => NumText t
  | .str s => s ≠ none
  | .arr xs => Json.GoodAll xs
  | .obj fs => Json.GoodFields fs
def Json.GoodAll : List Json → Prop
  | [] => True
  | x :: xs => x.Good ∧ Json.GoodAll xs
def Json.GoodFields : List (Option (List Char) × Json) → Prop
  | [] => True
  | (k, x) :: fs => k ≠ none ∧ x.Good ∧ Json.GoodFields fs
end

/-! ## Reading -/

/-- outside strings -/
abbrev rd (D : List (List Char)) (c : List Char) (d : ℕ) : Reader := ⟨D, c, d, false, false⟩

theorem read_append (s : Reader) (a b : List Char) : read s (a ++ b) = read (read s a) b := List.foldl_append

theorem read_cons (s : Reader) (c : Char) (b : List Char) : read s (c :: b) = read (s.step c) b := rfl

theorem read_nil (s : Reader) : read s [] = s := rfl

/-- characters without meaning outside strings -/
def Plain (c : Char) : Prop := c ≠ '"' ∧ c ≠ '{' ∧ c ≠ '[' ∧ c ≠ '}' ∧ c ≠ ']'

instance (c : Char) : Decidable (Plain c) := inferInstanceAs (Decidable (_ ∧ _))

theorem step_plain {c : Char} (h : Plain c) (D : List (List Char)) (u : List Char) (d : ℕ) :
    (rd D u d).step c = rd D (u ++ [c]) d := by
  obtain ⟨h1, h2, h3, h4, h5⟩ := h
  simp [Reader.step, h1, h2, h3, h4, h5]

theorem read_plain {t : List Char} (h : ∀ c ∈ t, Plain c) (D : List (List Char)) (u : List Char) (d : ℕ) :
    read (rd D u d) t = rd D (u ++ t) d := by
  induction t generalizing u with
  | nil => simp [read_nil]
  | cons c t ih =>
    rw [read_cons, step_plain (h c (by simp)), ih (fun c' hc' => h c' (by simp [hc']))]
    simp

theorem plain_num {c : Char} (h : c ∈ "0123456789+-.eE".toList) : Plain c := by
  have : ∀ c ∈ "0123456789+-.eE".toList, Plain c := by decide
  exact this c h

/-- inside a string, behind a complete character -/
abbrev rs (D : List (List Char)) (c : List Char) (d : ℕ) : Reader := ⟨D, c, d, true, false⟩

theorem step_inStr {c : Char} (h1 : c ≠ '"') (h2 : c ≠ '\\') (D : List (List Char)) (u : List Char) (d : ℕ) :
    (rs D u d).step c = rs D (u ++ [c]) d := by
  simp [Reader.step, h1, h2]

theorem step_esc (c : Char) (D : List (List Char)) (u : List Char) (d : ℕ) :
    read (rs D u d) ['\\', c] = rs D (u ++ ['\\', c]) d := by
  rw [read_cons, read_cons, read_nil]
  simp [Reader.step]

theorem digitChar_ok : ∀ n < 16, Nat.digitChar n ≠ '"' ∧ Nat.digitChar n ≠ '\\' := by decide

theorem read_escChar (c : Char) (D : List (List Char)) (u : List Char) (d : ℕ) :
    read (rs D u d) (escChar c) = rs D (u ++ escChar c) d := by
  unfold escChar
  split_ifs with h1 h2 h3 h4 h5 h6 h7 h8
  iterate 7 exact step_esc _ D u d
  · have a := digitChar_ok (c.toNat / 16) (by omega)
    have b := digitChar_ok (c.toNat % 16) (by omega)
    rw [show ['\\', 'u', '0', '0', Nat.digitChar (c.toNat / 16), Nat.digitChar (c.toNat % 16)] =
      ['\\', 'u'] ++ ['0', '0', Nat.digitChar (c.toNat / 16), Nat.digitChar (c.toNat % 16)] from rfl, read_append,
      step_esc, read_cons, step_inStr (by decide) (by decide), read_cons, step_inStr (by decide) (by decide), read_cons,
      step_inStr a.1 a.2, read_cons, step_inStr b.1 b.2, read_nil]
    simp
  · rw [read_cons, step_inStr h1 h2, read_nil]

theorem read_escText (s : List Char) (D : List (List Char)) (u : List Char) (d : ℕ) :
    read (rs D u d) (escText s) = rs D (u ++ escText s) d := by
  induction s generalizing u with
  | nil => simp [escText, read_nil]
  | cons c s ih => rw [escText, read_append, read_escChar, ih]; simp

theorem read_quoted {k : Option (List Char)} (hk : k ≠ none) (D : List (List Char)) (u : List Char) (d : ℕ) :
    read (rd D u d) (quoted k) = rd D (u ++ quoted k) d := by
  cases k with
  | none => exact absurd rfl hk
  | some s =>
    rw [quoted, read_cons, show (rd D u d).step '"' = rs D (u ++ ['"']) d by simp [Reader.step], read_append,
      read_escText, read_cons, read_nil]
    simp [Reader.step]

theorem step_open {c : Char} (h : c = '{' ∨ c = '[') (D : List (List Char)) (u : List Char) (d : ℕ) :
    (rd D u d).step c = rd D (u ++ [c]) (d + 1) := by
  rcases h with rfl | rfl <;> simp [Reader.step]

theorem step_close {c : Char} (h : c = '}' ∨ c = ']') (D : List (List Char)) (u : List Char) (d : ℕ) :
    (rd D u (d + 2)).step c = rd D (u ++ [c]) (d + 1) := by
  rcases h with rfl | rfl <;> simp [Reader.step]

mutual
/-- a value inside an object or array is read without closing it -/
theorem read_text : ∀ (j : Json), j.Good → ∀ (D : List (List Char)) (u : List Char) (d : ℕ),
    read (rd D u (d + 1)) j.text = rd D (u ++ j.text) (d + 1)
  | .null, _, D, u, d => read_plain (by simp only [Json.text]; decide) D u _
  | .num t, h, D, u, d => by
    rw [Json.Good] at h
    exact read_plain (fun c hc => plain_num (h.2 c hc)) D u _
  | .str s, h, D, u, d => by
    rw [Json.Good] at h
    exact read_quoted h D u _
  | .arr [], _, D, u, d => by
    simp only [Json.text, read_cons, read_nil]
    rw [step_open (.inr rfl), step_close (.inr rfl)]
    simp
  | .arr (x :: xs), h, D, u, d => by
    rw [Json.Good, Json.GoodAll] at h
    simp only [Json.text, read_cons, read_append, read_nil]
    rw [step_open (.inr rfl), read_text x h.1, read_textMore xs h.2, step_close (.inr rfl)]
    simp
  | .obj [], _, D, u, d => by
    simp only [Json.text, read_cons, read_nil]
    rw [step_open (.inl rfl), step_close (.inl rfl)]
    simp
  | .obj ((k, x) :: fs), h, D, u, d => by
    rw [Json.Good, Json.GoodFields] at h
    simp only [Json.text, read_cons, read_append, read_nil]
    rw [step_open (.inl rfl), read_quoted h.1, step_plain (by decide), read_text x h.2.1, read_textFields fs h.2.2,
      step_close (.inl rfl)]
    simp
theorem read_textMore : ∀ (xs : List Json), Json.GoodAll xs → ∀ (D : List (List Char)) (u : List Char) (d : ℕ),
    read (rd D u (d + 1)) (Json.textMore xs) = rd D (u ++ Json.textMore xs) (d + 1)
  | [], _, D, u, d => by simp [Json.textMore, read_nil]
  | x :: xs, h, D, u, d => by
    rw [Json.GoodAll] at h
    simp only [Json.textMore, read_cons, read_append]
    rw [step_plain (by decide), read_text x h.1, read_textMore xs h.2]
    simp
theorem read_textFields : ∀ (fs : List (Option (List Char) × Json)), Json.GoodFields fs →
    ∀ (D : List (List Char)) (u : List Char) (d : ℕ),
    read (rd D u (d + 1)) (Json.textFields fs) = rd D (u ++ Json.textFields fs) (d + 1)
  | [], _, D, u, d => by simp [Json.textFields, read_nil]
  | (k, x) :: fs, h, D, u, d => by
    rw [Json.GoodFields] at h
    simp only [Json.textFields, read_cons, read_append]
    rw [step_plain (by decide), read_quoted h.1, step_plain (by decide), read_text x h.2.1, read_textFields fs h.2.2]
    simp
end

/-- an object of its own is recognised -/
theorem read_doc {fs : List (Option (List Char) × Json)} (h : (Json.obj fs).Good) (D : List (List Char)) :
    read (rd D [] 0) (Json.obj fs).text = rd (D ++ [(Json.obj fs).text]) [] 0 := by
  have hc : ∀ (u : List Char), (rd D u 1).step '}' = rd (D ++ [u ++ ['}']]) [] 0 := fun u => by simp [Reader.step]
  cases fs with
  | nil =>
    simp only [Json.text, read_cons, read_nil]
    rw [step_open (.inl rfl), hc]
    rfl
  | cons kx fs =>
    obtain ⟨k, x⟩ := kx
    rw [Json.Good, Json.GoodFields] at h
    simp only [Json.text, read_cons, read_append, read_nil]
    rw [step_open (.inl rfl), read_quoted h.1, step_plain (by decide), read_text x h.2.1, read_textFields fs h.2.2, hc]
    simp

/-- nothing that has been read is forgotten -/
theorem read_flatten (s : Reader) (t : List Char) :
    (read s t).docs.flatten ++ (read s t).cur = s.docs.flatten ++ s.cur ++ t := by
  induction t generalizing s with
  | nil => simp [read_nil]
  | cons c t ih =>
    rw [read_cons, ih]
    have : (s.step c).docs.flatten ++ (s.step c).cur = s.docs.flatten ++ s.cur ++ [c] := by
      unfold Reader.step
      split_ifs <;> simp
    rw [this]
    simp

/-- complete texts stay -/
theorem read_docs_prefix (s : Reader) (t : List Char) : s.docs <+: (read s t).docs := by
  induction t generalizing s with
  | nil => exact List.prefix_rfl
  | cons c t ih =>
    rw [read_cons]
    refine List.IsPrefix.trans ?_ (ih _)
    unfold Reader.step
    split_ifs <;> simp

/-- a part of an object is recognised as incomplete -/
theorem read_part {fs : List (Option (List Char) × Json)} (h : (Json.obj fs).Good) (D : List (List Char))
    {p q : List Char} (hq : q ≠ []) (hpq : p ++ q = (Json.obj fs).text) :
    (read (rd D [] 0) p).docs = D ∧ (read (rd D [] 0) p).cur = p := by
  have h1 := read_flatten (rd D [] 0) p
  have h2 := read_docs_prefix (rd D [] 0) p
  have h3 := read_docs_prefix (read (rd D [] 0) p) q
  rw [← read_append, hpq, read_doc h] at h3
  obtain ⟨n, hn⟩ := h2
  simp only at hn h3
  rw [← hn, List.prefix_append_right_inj] at h3
  rw [← hn] at h1 ⊢
  have hnil : n = [] := by
    rcases n with _ | ⟨a, n⟩
    · rfl
    · obtain ⟨rfl, hnn⟩ := List.cons_prefix_cons.1 h3
      have hl := congrArg List.length h1
      simp only [List.flatten_append, List.flatten_cons, List.length_append, ← hpq, List.append_nil] at hl
      have : 0 < q.length := List.length_pos_iff.2 hq
      omega
  subst hnil
  simp only [List.append_nil] at h1 ⊢
  exact ⟨trivial, by simpa using h1⟩

/-! ## Different values have different texts -/

/-- the value of a digit of an escaped character -/
def hexVal (c : Char) : ℕ := if c.toNat < 58 then c.toNat - 48 else c.toNat - 87

/-- read one character of a string -/
def unesc : List Char → Option (Char × List Char)
  | '\\' :: 'b' :: r => some ('\x08', r)
  | '\\' :: 't' :: r => some ('\t', r)
  | '\\' :: 'n' :: r => some ('\n', r)
  | '\\' :: 'f' :: r => some ('\x0c', r)
  | '\\' :: 'r' :: r => some ('\r', r)
  | '\\' :: 'u' :: '0' :: '0' :: a :: b :: r => some (Char.ofNat (16 * hexVal a + hexVal b), r)
  | '\\' :: c :: r => some (c, r)
  | c :: r => some (c, r)
  | [] => none

theorem hexVal_digits : ∀ n < 32, 16 * hexVal (Nat.digitChar (n / 16)) + hexVal (Nat.digitChar (n % 16)) = n := by
  decide

theorem unesc_escChar (c : Char) (r : List Char) : unesc (escChar c ++ r) = some (c, r) := by
  unfold escChar
  split_ifs with h1 h2 h3 h4 h5 h6 h7 h8
  · subst h1; rfl
  · subst h2; rfl
  · subst h3; rfl
  · subst h4; rfl
  · subst h5; rfl
  · subst h6; rfl
  · subst h7; rfl
  · have : unesc (['\\', 'u', '0', '0', Nat.digitChar (c.toNat / 16), Nat.digitChar (c.toNat % 16)] ++ r) =
      some (Char.ofNat (16 * hexVal (Nat.digitChar (c.toNat / 16)) + hexVal (Nat.digitChar (c.toNat % 16))), r) := rfl
    rw [this, hexVal_digits _ h8, Char.ofNat_toNat]
  · rw [List.singleton_append, unesc.eq_def]
    split <;> simp_all

theorem escChar_ne_quote (c : Char) (r x : List Char) : escChar c ++ r ≠ '"' :: x := by
  unfold escChar
  split_ifs with h1 <;> simp [*]

theorem escText_inj {s s' r r' : List Char} (h : escText s ++ '"' :: r = escText s' ++ '"' :: r') : s = s' ∧ r = r' := by
  induction s generalizing s' with
  | nil =>
    cases s' with
    | nil => simpa [escText] using h
    | cons c s' => exact absurd (by simpa [escText] using h.symm) (escChar_ne_quote c (escText s' ++ '"' :: r') r)
  | cons c s ih =>
    cases s' with
    | nil => exact absurd (by simpa [escText] using h) (escChar_ne_quote c (escText s ++ '"' :: r) r')
    | cons c' s' =>
      simp only [escText, List.append_assoc] at h
      have h1 := congrArg unesc h
      rw [unesc_escChar, unesc_escChar] at h1
      simp only [Option.some.injEq, Prod.mk.injEq] at h1
      obtain ⟨rfl, h2⟩ := h1
      obtain ⟨rfl, h3⟩ := ih h2
      exact ⟨rfl, h3⟩

theorem quoted_inj {k k' : Option (List Char)} (hk : k ≠ none) (hk' : k' ≠ none) {r r' : List Char}
    (h : quoted k ++ r = quoted k' ++ r') : k = k' ∧ r = r' := by
  cases k with
  | none => exact absurd rfl hk
  | some s =>
    cases k' with
    | none => exact absurd rfl hk'
    | some s' =>
      simp only [quoted, List.cons_append, List.append_assoc, List.cons.injEq, true_and, List.nil_append] at h
      obtain ⟨rfl, h2⟩ := escText_inj h
      exact ⟨rfl, h2⟩

/-- what may follow a value -/
def Stop (r : List Char) : Prop := ∀ c x, r = c :: x → c ∉ "0123456789+-.eE".toList

theorem num_inj {t t' r r' : List Char} (ht : NumText t) (ht' : NumText t') (hr : Stop r) (hr' : Stop r')
    (h : t ++ r = t' ++ r') : t = t' ∧ r = r' := by
  have key : ∀ {t t' r r' : List Char}, NumText t' → Stop r → t ++ r = t' ++ r' → t'.length ≤ t.length := by
    intro t t' r r' ht' hr h
    by_contra hl
    have hlt : t.length < t'.length := by omega
    have e : (t ++ r)[t.length]? = some t'[t.length] := by
      rw [h, List.getElem?_append_left hlt, List.getElem?_eq_getElem hlt]
    rw [List.getElem?_append_right (le_refl _), Nat.sub_self] at e
    rcases r with _ | ⟨c, x⟩
    · simp at e
    · simp only [List.getElem?_cons_zero, Option.some.injEq] at e
      exact hr c x rfl (e ▸ ht'.2 _ (List.getElem_mem hlt))
  exact List.append_inj h (le_antisymm (key ht hr' h.symm) (key ht' hr h))

theorem stop_cons {c : Char} (h : c ∉ "0123456789+-.eE".toList) (x : List Char) : Stop (c :: x) := by
  intro c' x' e
  cases e
  exact h

theorem stop_more (xs : List Json) (r : List Char) : Stop (Json.textMore xs ++ ']' :: r) := by
  cases xs with
  | nil => rw [Json.textMore]; exact stop_cons (by decide) _
  | cons x xs => rw [Json.textMore]; exact stop_cons (by decide) _

theorem stop_fields (xs : List (Option (List Char) × Json)) (r : List Char) :
    Stop (Json.textFields xs ++ '}' :: r) := by
  cases xs with
  | nil => rw [Json.textFields]; exact stop_cons (by decide) _
  | cons x xs => obtain ⟨k, x⟩ := x; rw [Json.textFields]; exact stop_cons (by decide) _

/-- the kind of a value by its first character -/
def kind : List Char → ℕ
  | [] => 0
  | c :: _ => if c = 'n' then 1 else if c = '"' then 2 else if c = '[' then 3 else if c = '{' then 4 else 5

def Json.kind : Json → ℕ
  | .null => 1
  | .num _ => 5
  | .str _ => 2
  | .arr _ => 3
  | .obj _ => 4

theorem kind_text {j : Json} (h : j.Good) (r : List Char) : Nlcg.kind (j.text ++ r) = j.kind := by
  cases j with
  | null => rfl
  | num t =>
    rw [Json.Good] at h
    obtain ⟨h1, h2⟩ := h
    rcases t with _ | ⟨c, t⟩
    · exact absurd rfl h1
    · have := h2 c (by simp)
      have key : ∀ c ∈ "0123456789+-.eE".toList, c ≠ 'n' ∧ c ≠ '"' ∧ c ≠ '[' ∧ c ≠ '{' := by decide
      obtain ⟨a, b, d, e⟩ := key c this
      simp [Json.text, Nlcg.kind, Json.kind, a, b, d, e]
  | str s =>
    rw [Json.Good] at h
    cases s with
    | none => exact absurd rfl h
    | some s => simp [Json.text, quoted, Nlcg.kind, Json.kind]
  | arr xs => cases xs <;> simp [Json.text, Nlcg.kind, Json.kind]
  | obj fs =>
    cases fs with
    | nil => simp [Json.text, Nlcg.kind, Json.kind]
    | cons f fs => obtain ⟨k, x⟩ := f; simp [Json.text, Nlcg.kind, Json.kind]

theorem text_ne_close {j : Json} (h : j.Good) (r x : List Char) : j.text ++ r ≠ ']' :: x := by
  intro e
  have h1 := congrArg Nlcg.kind e
  rw [kind_text h] at h1
  cases j with
  | num t =>
    rw [Json.Good] at h
    obtain ⟨h2, h3⟩ := h
    rcases t with _ | ⟨c, t⟩
    · exact h2 rfl
    · have := h3 c (by simp)
      simp only [Json.text, List.cons_append, List.cons.injEq] at e
      rw [e.1] at this
      revert this
      decide
  | _ => simp [Json.kind, Nlcg.kind] at h1

mutual
theorem text_inj : ∀ (j j' : Json), j.Good → j'.Good → ∀ (r r' : List Char), Stop r → Stop r' →
    j.text ++ r = j'.text ++ r' → j = j' ∧ r = r'
  | .null, j', h, h', r, r', s, s', e => by
    have hk := congrArg Nlcg.kind e
    rw [kind_text h, kind_text h'] at hk
    cases j' with
    | null => simpa [Json.text] using e
    | _ => simp [Json.kind] at hk
  | .num t, j', h, h', r, r', s, s', e => by
    have hk := congrArg Nlcg.kind e
    rw [kind_text h, kind_text h'] at hk
    cases j' with
    | num t' =>
      rw [Json.Good] at h h'
      obtain ⟨rfl, rfl⟩ := num_inj h h' s s' e
      exact ⟨rfl, rfl⟩
    | _ => simp [Json.kind] at hk
  | .str t, j', h, h', r, r', s, s', e => by
    have hk := congrArg Nlcg.kind e
    rw [kind_text h, kind_text h'] at hk
    cases j' with
    | str t' =>
      rw [Json.Good] at h h'
      obtain ⟨rfl, rfl⟩ := quoted_inj h h' e
      exact ⟨rfl, rfl⟩
    | _ => simp [Json.kind] at hk
  | .arr [], j', h, h', r, r', s, s', e => by
    have hk := congrArg Nlcg.kind e
    rw [kind_text h, kind_text h'] at hk
    cases j' with
    | arr xs' =>
      cases xs' with
      | nil => simpa [Json.text] using e
      | cons x' xs' =>
        rw [Json.Good, Json.GoodAll] at h'
        simp only [Json.text, List.cons_append, List.append_assoc, List.cons.injEq, true_and, List.nil_append] at e
        exact absurd e.symm (text_ne_close h'.1 _ _)
    | _ => simp [Json.kind] at hk
  | .arr (x :: xs), j', h, h', r, r', s, s', e => by
    have hk := congrArg Nlcg.kind e
    rw [kind_text h, kind_text h'] at hk
    cases j' with
    | arr xs' =>
      rw [Json.Good, Json.GoodAll] at h
      cases xs' with
      | nil =>
        simp only [Json.text, List.cons_append, List.append_assoc, List.cons.injEq, true_and, List.nil_append] at e
        exact absurd e (text_ne_close h.1 _ _)
      | cons x' xs' =>
        rw [Json.Good, Json.GoodAll] at h'
        simp only [Json.text, List.cons_append, List.append_assoc, List.cons.injEq, true_and, List.nil_append] at e
        obtain ⟨rfl, e2⟩ := text_inj x x' h.1 h'.1 _ _ (stop_more _ _) (stop_more _ _) e
        obtain ⟨rfl, rfl⟩ := textMore_inj xs xs' h.2 h'.2 _ _ e2
        exact ⟨rfl, rfl⟩
    | _ => simp [Json.kind] at hk
  | .obj [], j', h, h', r, r', s, s', e => by
    have hk := congrArg Nlcg.kind e
    rw [kind_text h, kind_text h'] at hk
    cases j' with
    | obj fs' =>
      cases fs' with
      | nil => simpa [Json.text] using e
      | cons f' fs' =>
        obtain ⟨k', x'⟩ := f'
        rw [Json.Good, Json.GoodFields] at h'
        cases k' with
        | none => exact absurd rfl h'.1
        | some k' => simp [Json.text, quoted] at e
    | _ => simp [Json.kind] at hk
  | .obj ((k, x) :: fs), j', h, h', r, r', s, s', e => by
    have hk := congrArg Nlcg.kind e
    rw [kind_text h, kind_text h'] at hk
    cases j' with
    | obj fs' =>
      rw [Json.Good, Json.GoodFields] at h
      cases fs' with
      | nil =>
        cases k with
        | none => exact absurd rfl h.1
        | some k => simp [Json.text, quoted] at e
      | cons f' fs' =>
        obtain ⟨k', x'⟩ := f'
        rw [Json.Good, Json.GoodFields] at h'
        simp only [Json.text, List.cons_append, List.append_assoc, List.cons.injEq, true_and, List.nil_append] at e
        obtain ⟨rfl, e1⟩ := quoted_inj h.1 h'.1 e
        simp only [List.cons.injEq, true_and] at e1
        obtain ⟨rfl, e2⟩ := text_inj x x' h.2.1 h'.2.1 _ _ (stop_fields _ _) (stop_fields _ _) e1
        obtain ⟨rfl, rfl⟩ := textFields_inj fs fs' h.2.2 h'.2.2 _ _ e2
        exact ⟨rfl, rfl⟩
    | _ => simp [Json.kind] at hk
theorem textMore_inj : ∀ (xs xs' : List Json), Json.GoodAll xs → Json.GoodAll xs' → ∀ (r r' : List Char),
    Json.textMore xs ++ ']' :: r = Json.textMore xs' ++ ']' :: r' → xs = xs' ∧ r = r'
  | [], [], _, _, r, r', e => by simpa [Json.textMore] using e
  | [], x' :: xs', _, _, r, r', e => by simp [Json.textMore] at e
  | x :: xs, [], _, _, r, r', e => by simp [Json.textMore] at e
  | x :: xs, x' :: xs', h, h', r, r', e => by
    rw [Json.GoodAll] at h h'
    simp only [Json.textMore, List.cons_append, List.append_assoc, List.cons.injEq, true_and] at e
    obtain ⟨rfl, e2⟩ := text_inj x x' h.1 h'.1 _ _ (stop_more _ _) (stop_more _ _) e
    obtain ⟨rfl, rfl⟩ := textMore_inj xs xs' h.2 h'.2 _ _ e2
    exact ⟨rfl, rfl⟩
theorem textFields_inj : ∀ (fs fs' : List (Option (List Char) × Json)), Json.GoodFields fs → Json.GoodFields fs' →
    ∀ (r r' : List Char), Json.textFields fs ++ '}' :: r = Json.textFields fs' ++ '}' :: r' → fs = fs' ∧ r = r'
  | [], [], _, _, r, r', e => by simpa [Json.textFields] using e
  | [], (k', x') :: fs', _, _, r, r', e => by simp [Json.textFields] at e
  | (k, x) :: fs, [], _, _, r, r', e => by simp [Json.textFields] at e
  | (k, x) :: fs, (k', x') :: fs', h, h', r, r', e => by
    rw [Json.GoodFields] at h h'
    simp only [Json.textFields, List.cons_append, List.append_assoc, List.cons.injEq, true_and] at e
    obtain ⟨rfl, e1⟩ := quoted_inj h.1 h'.1 e
    simp only [List.cons.injEq, true_and] at e1
    obtain ⟨rfl, e2⟩ := text_inj x x' h.2.1 h'.2.1 _ _ (stop_fields _ _) (stop_fields _ _) e1
    obtain ⟨rfl, rfl⟩ := textFields_inj fs fs' h.2.2 h'.2.2 _ _ e2
    exact ⟨rfl, rfl⟩
end

end Nlcg

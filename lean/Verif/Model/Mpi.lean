import Verif.Model.Basic
import Verif.Model.KMap

/-!
# MPI collectives and the `allgather` family

A communicator with `n` ranks is a list with one local value per rank; a collective is
a function of the whole list. `src/mpi/communicator.hpp`, `src/la/mvector.hpp:132-272`.
Buffers are lists; an access outside a buffer is undefined behaviour (`Res.ub`).
Trusted: `MPI_Allgatherv` with `MPI_IN_PLACE` replaces, on every rank, block `i` of
the buffer by rank `i`'s block `i`; ranks run the same code up to the collective.
Counts are natural numbers (the code's `int` overflow for more than 2^31-1 elements is
not modelled).
-/

namespace Nlcg
variable {β : Type}

/-- read `n` elements starting at `off` -/
def slice (buf : List β) (off n : Nat) : Res (List β) :=
  if off + n ≤ buf.length then .ok ((buf.drop off).take n) else .ub

/-- `std::copy(vals.begin(), vals.end(), buf.data() + off)` -/
def writeAt (buf : List β) (off : Nat) (vals : List β) : Res (List β) :=
  if off + vals.length ≤ buf.length then
    .ok (buf.take off ++ vals ++ buf.drop (off + vals.length))
  else .ub

/-- exclusive prefix sums starting at `acc`:
`std::vector<int> scan(nranks, 0); std::partial_sum(nelems.begin(), nelems.end()-1, scan.begin()+1)`,
`src/la/mvector.hpp:150-151`, `src/mpi/communicator.hpp:134-135`. -/
def exclScan (acc : Nat) : List Nat → List Nat
  | [] => []
  | n :: ns => acc :: exclScan (acc + n) ns

/-- `MPI_Allgatherv(MPI_IN_PLACE, ..)`: the blocks read by rank `i` from its own buffer ... -/
def ownBlocks : List (List β) → List Nat → List Nat → Res (List (List β))
  | b :: bs, d :: ds, c :: cs => do
    let s ← slice b d c
    let rest ← ownBlocks bs ds cs
    pure (s :: rest)
  | [], [], [] => .ok []
  | _, _, _ => .ub

/-- ... and written to block `i` of every buffer. -/
def writeBlocks (buf : List β) : List (List β) → List Nat → Res (List β)
  | s :: ss, d :: ds => do
    let buf' ← writeAt buf d s
    writeBlocks buf' ss ds
  | [], [] => .ok buf
  | _, _ => .ub

/-- sequence a function over the ranks -/
def forRanks {γ : Type} (f : β → Res γ) : List β → Res (List γ)
  | [] => .ok []
  | x :: xs => do
    let y ← f x
    let ys ← forRanks f xs
    pure (y :: ys)

/-- `Communicator::allgather(buffer, recvcounts)`, `src/mpi/communicator.hpp:128-146`:
displacements are the exclusive prefix sums of the counts. -/
def allgatherv (bufs : List (List β)) (counts : List Nat) : Res (List (List β)) := do
  let displs := exclScan 0 counts
  let blocks ← ownBlocks bufs displs counts
  forRanks (fun b => writeBlocks b blocks displs) bufs

/-- `nelems[rank] = n; comm.allgather(nelems.data(), 1)`, `src/la/mvector.hpp:147-149` and
`170-172`: every rank puts its number into slot `rank` of a zero-initialised vector, then the
slots are exchanged. `nranks` is the size of the communicator. -/
def countBuffers (nranks : Nat) : Nat → List Nat → List (List Nat)
  | _, [] => []
  | r, n :: ns => ((List.replicate nranks 0).set r n) :: countBuffers nranks (r + 1) ns

def gatherCounts (ns : List Nat) : Res (List (List Nat)) :=
  allgatherv (countBuffers ns.length 0 ns) (List.replicate ns.length 1)

/-- `v[i]` of a `std::vector`: undefined behaviour outside its bounds -/
def vecAt {γ : Type} (l : List γ) (i : Nat) : Res γ :=
  match l[i]? with
  | some x => .ok x
  | none => .ub

/-- buffers with each rank's contribution at its own offset:
`vector buf(size); std::copy(values.begin(), values.end(), buf.data() + scan[rank])`,
`src/la/mvector.hpp:150-155`, `173-178`. `r` is the rank; third argument: per rank the counts
it received. -/
def sendBuffers [Inhabited β] : Nat → List (List β) → List (List Nat) → Res (List (List β))
  | r, v :: vs, ns :: nss => do
    let off ← vecAt (exclScan 0 ns) r
    let b ← writeAt (List.replicate ns.sum default) off v
    let rest ← sendBuffers (r + 1) vs nss
    pure (b :: rest)
  | _, [], [] => .ok []
  | _, _, _ => .ub

/-- cut a buffer at the (inclusive) prefix sums: `result[i] = vector(buf+scan[i], buf+scan[i+1])`,
`src/la/mvector.hpp:181-184`. -/
def cutBlocks (buf : List β) (off : Nat) : List Nat → Res (List (List β))
  | [] => .ok []
  | n :: ns => do
    let s ← slice buf off n
    let rest ← cutBlocks buf (off + n) ns
    pure (s :: rest)

/-- the exchange of variable-size local vectors up to (and including) the second collective;
returns per rank (its counts, its filled buffer).
`src/la/mvector.hpp:147-157` and `169-179`, `src/mpi/communicator.hpp:178-188`. -/
def exchange [Inhabited β] (locals : List (List β)) : Res (List (List Nat × List β)) := do
  let nelems ← gatherCounts (locals.map List.length)
  let bufs ← sendBuffers 0 locals nelems
  -- all ranks hold the same counts here (`exchange_counts_eq` in Proofs); MPI needs this
  match nelems with
  | [] => pure []
  | cs :: _ => do
    let out ← allgatherv bufs cs
    pure (nelems.zip out)

/-- `_allgather`, `src/la/mvector.hpp:166-186` (same text in `src/mpi/communicator.hpp:174-196`). -/
def allgatherVec [Inhabited β] (locals : List (List β)) : Res (List (List (List β))) := do
  let ex ← exchange locals
  forRanks (fun p => cutBlocks p.2 0 p.1) ex

variable {κ : Type} [LinearOrder κ] [Inhabited κ]

/-- `mvector<scalar>::allgather`, `src/la/mvector.hpp:132-163`, on a communicator of the same
size as the container's own. -/
def allgatherScalar [Inhabited β] (locals : List (KMap κ β)) : Res (List (KMap κ β)) := do
  let ex ← exchange locals
  pure (ex.map fun p => KMap.ofRange p.2)

/-- offsets of all blocks of all ranks, `src/la/mvector.hpp:221-232` -/
def blockOffsets (acc : Nat) : List (List Nat) → List (List Nat)
  | [] => []
  | ls :: rest => exclScan acc ls :: blockOffsets (acc + ls.sum) rest

/-- copy the local blocks to their offsets, `src/la/mvector.hpp:236-246`. The `assert` in line 241
(`offsets[rank][i] < buffer.size()`) is active unless `ndebug`. -/
def packBlocks (ndebug : Bool) (buf : List β) : List (List β) → List Nat → Res (List β)
  | b :: bs, off :: offs => do
    let _ ← (if ndebug || decide (off < buf.length) then .ok () else .abort : Res Unit)
    let buf' ← writeAt buf off b
    packBlocks ndebug buf' bs offs
  | [], _ => .ok buf
  | _ :: _, [] => .ub

/-- read back all blocks of one rank, `src/la/mvector.hpp:257-269`:
(key, contents) in order -/
def readBlocks (buf : List β) : List κ → List Nat → List Nat → Res (List (κ × List β))
  | k :: ks, off :: offs, n :: ns => do
    let s ← slice buf off n
    let rest ← readBlocks buf ks offs ns
    pure ((k, s) :: rest)
  | _, [], _ => .ok []
  | _, _, _ => .ub

def readAll (buf : List β) : List (List κ) → List (List Nat) → List (List Nat) →
    Res (List (κ × List β))
  | ks :: kss, offs :: offss, ns :: nss => do
    let a ← readBlocks buf ks offs ns
    let rest ← readAll buf kss offss nss
    pure (a ++ rest)
  | [], [], [] => .ok []
  | _, _, _ => .ub

/-- the filled send buffers of all ranks, `src/la/mvector.hpp:220-246`; `r` is the rank -/
def packAll [Inhabited β] (ndebug : Bool) : Nat → List (KMap κ (List β)) →
    List (List (List Nat)) → Res (List (List β))
  | r, m :: ms, sz :: szs => do
    let offs ← (if m.isEmpty then .ok [] else vecAt (blockOffsets 0 sz) r : Res (List Nat))
    let b ← packBlocks ndebug (List.replicate (sz.map List.sum).sum default)
      (m.map Prod.snd) offs
    let rest ← packAll ndebug (r + 1) ms szs
    pure (b :: rest)
  | _, [], [] => .ok []
  | _, _, _ => .ub

/-- rebuild the map on every rank, `src/la/mvector.hpp:254-271` -/
def unpackAll : List (List β) → List (List (List κ)) → List (List (List Nat)) →
    Res (List (KMap κ (List β)))
  | b :: bs, ks :: kss, sz :: szs => do
    let l ← readAll b ks (blockOffsets 0 sz) sz
    let rest ← unpackAll bs kss szs
    pure (KMap.setAll l [] :: rest)
  | [], [], [] => .ok []
  | _, _, _ => .ub

/-- `mvector<view>::allgather`, `src/la/mvector.hpp:190-272`: gathers the keys, then the block
sizes, then the concatenated data, and rebuilds the map with `result[key] = dst`. -/
def allgatherView [Inhabited β] (ndebug : Bool) (locals : List (KMap κ (List β))) :
    Res (List (KMap κ (List β))) := do
  let keys ← allgatherVec (locals.map KMap.keys)
  let sizes ← allgatherVec (locals.map fun m => m.map fun e => e.2.length)
  let bufs ← packAll ndebug 0 locals sizes
  match sizes with
  | [] => pure []
  | sz :: _ => do
    let out ← allgatherv bufs (sz.map List.sum)
    unpackAll out keys sizes

/-- `comm.allreduce(x, mpi_op::sum)` for one value per rank, in rank order from rank 0 (MPI leaves
the order open; only used with a commutative, associative sum in the theorems).
`src/mpi/communicator.hpp:198-225`. -/
def allreduceSum {M : Type} [Add M] [Zero M] (xs : List M) : List M :=
  List.replicate xs.length (xs.foldr (· + ·) 0)

end Nlcg

import Mathlib.Data.Prod.Lex
import Mathlib.Order.Basic
import Mathlib.Data.Int.Order.Basic

/-!
# `std::map` keyed by (k-point, spin)

`mvector` (`src/la/mvector.hpp:28-130`) wraps a `std::map<std::pair<int,int>, T>`.
A map is the list of its entries in iteration order, i.e. strictly sorted by key; the
sortedness is a separate predicate, not part of the type.
-/

namespace Nlcg

/-- `mvector::key_t`, `src/la/mvector.hpp:32`, ordered lexicographically (`std::pair`). -/
abbrev Key := ℤ ×ₗ ℤ

abbrev KMap (κ β : Type) := List (κ × β)

instance {β : Type} [DecidableEq β] : DecidableEq (KMap Key β) :=
  inferInstanceAs (DecidableEq (List (Key × β)))

namespace KMap
variable {κ β γ : Type} [LinearOrder κ]

/-- strictly increasing keys -/
def Sorted (m : KMap κ β) : Prop := m.Pairwise (fun a b => a.1 < b.1)

/-- `data_.find(k)` / `data_.at(k)` (`none`: not present, `at` throws `std::out_of_range`).
`src/la/mvector.hpp:48-61`. -/
def lookup (k : κ) : KMap κ β → Option β
  | [] => none
  | (k', v) :: m => if k = k' then some v else lookup k m

/-- `data_[k] = v` (overwrites), `src/la/mvector.hpp:43-46`. -/
def set (k : κ) (v : β) : KMap κ β → KMap κ β
  | [] => [(k, v)]
  | (k', v') :: m =>
    if k < k' then (k, v) :: (k', v') :: m
    else if k = k' then (k, v) :: m
    else (k', v') :: set k v m

/-- `std::map::insert` (keeps an existing entry). -/
def insertNew (k : κ) (v : β) : KMap κ β → KMap κ β
  | [] => [(k, v)]
  | (k', v') :: m =>
    if k < k' then (k, v) :: (k', v') :: m
    else if k = k' then (k', v') :: m
    else (k', v') :: insertNew k v m

/-- the range constructor `container_t(first, last)`: repeated `insert`. -/
def ofRange (l : List (κ × β)) : KMap κ β := l.foldl (fun m e => insertNew e.1 e.2 m) []

/-- repeated `m[k] = v`. -/
def setAll (l : List (κ × β)) (m : KMap κ β) : KMap κ β := l.foldl (fun m e => set e.1 e.2 m) m

def keys (m : KMap κ β) : List κ := m.map Prod.fst

end KMap
end Nlcg

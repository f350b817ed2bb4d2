import Verif.Model.Arr
import Mathlib.Data.Fin.Tuple.Basic

/-!
# Python comprehensions over axes

`seqFin f` is `tuple(f(axis) for axis in range(d))` for a function that may raise: entries are evaluated in
order and the first error is raised.
-/

namespace JaxCfd

/-- `tuple(f(axis) for axis in range(d))`. -/
def seqFin {α : Type} : {d : ℕ} → (Fin d → Except Err α) → Except Err (Fin d → α)
  | 0, _ => .ok Fin.elim0
  | _ + 1, f => do
      let a ← f 0
      let r ← seqFin (fun i => f i.succ)
      return Fin.cons a r

end JaxCfd

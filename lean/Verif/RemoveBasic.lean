import Verif.CondSet
import Verif.RunDefault
/-!
# Model of removing a basic condition from a scheduler
-/

set_option linter.unusedSectionVars false

namespace GS
variable {α κ W : Type _} [DecidableEq α] [DecidableEq κ]

/-- condition.py:756-848 `remove_condition(n)`, for a node without structural conditions;
the same as `remove_condition(c)` where `c` is the basic condition of `n`
(`removeBasic_removeOwner`, `removeBasic_removeCond` below). Simplification: the warning
that there is no such condition is not modelled here (see `Verif/Warn.lean`). -/
def Sys.removeBasic (s : Sys α κ W) (n : α) : Sys α κ W :=
  match Dict.get? s.conds n with
  | none => s
  | some c => { s with store := setOwner none c s.store, conds := Dict.erase s.conds n }

/-- It is `remove_condition(n)` of the condition set. -/
theorem removeBasic_removeOwner {t : CSet α κ W} {s : Sys α κ W} {n : α}
    (h1 : s.conds = t.basic) (h2 : s.store = t.store) (h3 : Dict.get? t.structural n = none) :
    (s.removeBasic n).conds = (t.removeOwner n).1.basic ∧
    (s.removeBasic n).store = (t.removeOwner n).1.store := by
  unfold Sys.removeBasic CSet.removeOwner
  rw [h1, h3]
  cases Dict.get? t.basic n with
  | none => exact ⟨h1, h2⟩
  | some b => exact ⟨rfl, by rw [h2]; rfl⟩

/-- It is `remove_condition(c)` of the condition set, if `c` is the basic condition of `n`. -/
theorem removeBasic_removeCond {t : CSet α κ W} {s : Sys α κ W} {n : α} {c : Cond α κ W}
    (h1 : s.conds = t.basic) (h2 : s.store = t.store) (h3 : Dict.get? t.basic n = some c)
    (h4 : t.ownerOf (.basic c) = some n) :
    (s.removeBasic n).conds = (t.removeCond (.basic c)).1.basic ∧
    (s.removeBasic n).store = (t.removeCond (.basic c)).1.store := by
  unfold Sys.removeBasic CSet.removeCond
  rw [h1, h4]
  dsimp only
  rw [h3]
  dsimp only
  rw [if_pos rfl]
  exact ⟨rfl, by rw [h2]; rfl⟩

theorem Sys.removeBasic_fresh (s : Sys α κ W) (n : α) :
    (s.removeBasic n).store.fresh = s.store.fresh := by
  unfold Sys.removeBasic
  cases Dict.get? s.conds n with
  | none => rfl
  | some c => exact (setOwner_rest none c s.store).2

theorem Dict.mem_erase' {β : Type _} (d : Dict α β) (n m : α) (y : β)
    (h : (m, y) ∈ Dict.erase d n) : (m, y) ∈ d := by
  induction d with
  | nil => exact h
  | cons p d ih =>
    obtain ⟨k, z⟩ := p
    simp only [Dict.erase] at h
    split at h
    · exact List.mem_cons_of_mem _ h
    · rcases List.mem_cons.mp h with h | h
      · exact h ▸ List.mem_cons_self
      · exact List.mem_cons_of_mem _ (ih h)

end GS

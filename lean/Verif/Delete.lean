import Verif.Scheduler
/-!
# Model: deleting what is stored under an execution id
-/

set_option linter.unusedSectionVars false

namespace GS
variable {α κ W β : Type _} [DecidableEq α] [DecidableEq κ]

/-- scheduler.py:604-607 `try: del obj[execution_id] except KeyError: pass`.  (The keys of a
Python dict are distinct: all entries with the key, that is at most one, go.) -/
def Dict.delete (d : Dict β γ) [DecidableEq β] (k : β) : Dict β γ :=
  d.filter fun e => decide (e.1 ≠ k)

/-- scheduler.py:596-607 `_delete_counts`. -/
def Sys.deleteCounts (s : Sys α κ W) (id : Option κ) : Sys α κ W :=
  { s with
    countsUseable := Dict.delete s.countsUseable id
    countsTotal := Dict.delete s.countsTotal id
    clocks := Dict.delete s.clocks id
    execList := Dict.delete s.execList id
    timestamps := Dict.delete s.timestamps id }

theorem Dict.get?_delete [DecidableEq β] (d : Dict β γ) (k k' : β) :
    Dict.get? (Dict.delete d k) k' = if k' = k then none else Dict.get? d k' := by
  induction d with
  | nil => simp [Dict.delete]
  | cons e d ih =>
    obtain ⟨x, v⟩ := e
    unfold Dict.delete at ih ⊢
    by_cases hx : x = k
    · subst hx
      rw [List.filter_cons_of_neg (by simp), ih]
      by_cases hk : k' = x
      · simp [hk]
      · rw [if_neg hk, if_neg hk, Dict.get?_cons, if_neg (Ne.symm hk)]
    · rw [List.filter_cons_of_pos (by simpa using hx), Dict.get?_cons, Dict.get?_cons, ih]
      by_cases hk : k' = k
      · subst hk; simp [hx]
      · simp [hk]

end GS

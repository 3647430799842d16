import Verif.Spec.Composite
import Verif.Props.Conditions
/-!
# C102: conditions given to `All` and `Any`, by position or by keyword
-/

set_option linter.unusedSectionVars false

namespace GS.Props
open Spec
variable {α κ W C : Type _} [DecidableEq α] [DecidableEq κ]
variable {v : View α κ W} {id : Option κ} {o : Nat} {st st' : Store α κ}

/-- C102 (partial): `All(...)` and `Any(...)` called without keywords, or with one keyword
whose value is a list, are satisfied when all, or one, of the conditions named in the call are.
Missing: all other calls with keywords, for which `C102_keyword_raises` shows that they
raise `TypeError`. -/
theorem C102_named_partial {args : List (Cond α κ W)} {dependencies : List (String × KwValue (Cond α κ W))}
    (h : PlainCall dependencies) :
    (∃ c, newAll o args dependencies = .ok c ∧ ∀ st st', eval v id c st = (.ok true, st') ↔
      EachGives v id true (named args dependencies) st st') ∧
    ∃ c, newAny o args dependencies = .ok c ∧ ∀ st st', eval v id c st = (.ok false, st') ↔
      EachGives v id false (named args dependencies) st st' := by
  have e : compositeArgs args dependencies = .ok (named args dependencies) := by
    rcases h with rfl | ⟨k, cs, rfl⟩ <;> simp [compositeArgs, named]
  exact ⟨⟨_, by rw [newAll, e], fun _ _ => C23_all⟩, ⟨_, by rw [newAny, e], fun _ _ => C23_any⟩⟩

/-- C102 is false of the code for all other calls: with two keywords or more, or with a
condition as the value of a keyword, no condition is made. -/
theorem C102_keyword_raises {args : List (Cond α κ W)}
    {dependencies : List (String × KwValue (Cond α κ W))} (h : ¬ PlainCall dependencies) :
    newAll o args dependencies = .error .typeError ∧ newAny o args dependencies = .error .typeError := by
  have e : compositeArgs args dependencies = .error .typeError := by
    match dependencies with
    | [] => exact absurd (.inl rfl) h
    | [(k, .many cs)] => exact absurd (.inr ⟨k, cs, rfl⟩) h
    | [(_, .one _)] => rfl
    | _ :: _ :: _ => simp [compositeArgs]
  simp [newAll, newAny, e]

/-- `All(x=Always())` and `All(x=[...], y=[...])`. -/
example : ¬ PlainCall [("x", .one (.leaf 0 .always : Cond Nat Nat Unit))] ∧
    ¬ PlainCall [("x", .many [(.leaf 0 .always : Cond Nat Nat Unit)]), ("y", .many [])] := by
  constructor <;> rintro (h | ⟨k, cs, h⟩) <;> cases h

/-- `All(Always(), x=[Never()])` is accepted. -/
example : PlainCall [("x", .many [(.leaf 0 .never : Cond Nat Nat Unit)])] := .inr ⟨_, _, rfl⟩

/-- C26, documentation: `AfterNCallsCombined(d1, ..., n)` is documented to need at least `n + 1`
calls.  It is satisfied already when the calls add up to `n` exactly. -/
theorem C26_combined_documented {ts : TimeScale} {ds : List α} {calls : α → Nat} {n : Nat}
    (h : ∀ d ∈ ds, Calls v id st ts d (calls d)) (hn : (ds.map calls).sum = n) :
    value v id st (.afterNCallsCombined ds (some n) ts) = .ok true ∧ ¬ n + 1 ≤ (ds.map calls).sum :=
  ⟨(C26_combined v id st ds).2 ⟨calls, h, by omega⟩, by omega⟩

/-- Two nodes that have not been called, and `n = 0`. -/
example : let s := ((Sys.new [(1, [0])] .standard none 1
      ⟨fun _ _ => .error .attributeError, fun _ _ => .error .attributeError,
        fun _ _ _ _ => .error .attributeError, ()⟩ : Sys Nat Nat Unit).start
        { id := none, esu := .leaf 10 .never, seq := .leaf 11 .never }).1
    (∀ d ∈ [0, 1], Calls s.toView none s.store .environment_state_update d 0) ∧
    ([0, 1].map fun _ : Nat => 0).sum = 0 := by
  refine ⟨fun d hd => calls_iff.2 ?_, rfl⟩
  rcases List.mem_cons.1 hd with rfl | hd
  · decide +kernel
  · rcases List.mem_cons.1 hd with rfl | hd
    · decide +kernel
    · cases hd

end GS.Props

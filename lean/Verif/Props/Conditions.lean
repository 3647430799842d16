import Verif.Objects
import Verif.Props.Life
import Verif.Props.RunCounts
/-!
# C23-C26: composite conditions, `NWhen`, `JustRan`, call counts
-/

set_option linter.unusedSectionVars false

namespace GS.Props
open Spec
variable {α κ W β : Type _} [DecidableEq α] [DecidableEq κ]
variable {U E : Sys α κ W → Sys α κ W → Prop} {a : RunArgs α κ W} {s0 s s' : Sys α κ W}
variable {abs : Bool} {h h' : History α κ W} {pc pc' : PC α}
variable {log : List (Option κ × Entry α κ W)} {gs : List (Gen α κ W)}
variable {v : View α κ W} {id i : Option κ} {st st' : Store α κ} {c : Cond α κ W}
variable {cs : List (Cond α κ W)} {o : Nat}

/-! ## C23 -/

/-- C23: `All` is satisfied iff every component, evaluated from left to right, is. -/
theorem C23_all : eval v id (.all o cs) st = (.ok true, st') ↔ EachGives v id true cs st st' := by
  simp only [eval]
  induction cs generalizing st with
  | nil =>
    simp only [evalAll, Prod.mk.injEq, true_and]
    exact ⟨fun h => h ▸ .nil, fun h => by cases h; rfl⟩
  | cons c cs ih =>
    simp only [evalAll]
    rcases hc : eval v id c st with ⟨r, st1⟩
    rcases r with e | b
    · exact ⟨fun h => (by cases h), fun h => by cases h with | cons h1 _ => rw [hc] at h1; cases h1⟩
    · cases b
      · exact ⟨fun h => (by cases h), fun h => by cases h with | cons h1 _ => rw [hc] at h1; cases h1⟩
      · rw [ih]
        exact ⟨fun h => .cons hc h, fun h => by
          cases h with | cons h1 h2 => rw [hc] at h1; cases h1; exact h2⟩

/-- C23: `All` gives anything else (not satisfied, or an exception) iff the first
component that is not satisfied gives it; the components after that one are not
evaluated. -/
theorem C23_all_decided {r : Except Err Bool} (hr : r ≠ .ok true) :
    eval v id (.all o cs) st = (r, st') ↔ FirstOther v id true cs st r st' := by
  simp only [eval]
  induction cs generalizing st with
  | nil =>
    simp only [evalAll, Prod.mk.injEq]
    exact ⟨fun h => absurd h.1.symm hr, fun ⟨pre, _, _, _, h, _⟩ => by cases pre <;> cases h⟩
  | cons c cs ih =>
    simp only [evalAll]
    have key : ∀ r1 st1, eval v id c st = (r1, st1) → r1 ≠ .ok true →
        ((r1, st1) = (r, st') ↔ FirstOther v id true (c :: cs) st r st') := by
      intro r1 st1 hc hr1
      refine ⟨fun h => ?_, ?_⟩
      · cases h; exact ⟨[], c, cs, st, rfl, .nil, hc, hr1⟩
      · rintro ⟨pre, d, post, st2, h1, h2, h3, h4⟩
        cases h2 with
        | nil => injection h1 with h1 _; subst h1; rw [← hc, h3]
        | cons h5 h6 =>
          injection h1 with h1 _; subst h1; rw [hc] at h5; cases h5; exact absurd rfl hr1
    rcases hc : eval v id c st with ⟨r1, st1⟩
    rcases r1 with e | b
    · exact key _ _ hc (by simp)
    · cases b
      · exact key _ _ hc (by simp)
      · rw [ih]
        constructor
        · rintro ⟨pre, d, post, st2, h1, h2, h3, h4⟩
          exact ⟨c :: pre, d, post, st2, by rw [h1]; rfl, .cons hc h2, h3, h4⟩
        · rintro ⟨pre, d, post, st2, h1, h2, h3, h4⟩
          cases h2 with
          | nil =>
            injection h1 with h1 _; subst h1; rw [hc] at h3; cases h3; exact absurd rfl h4
          | cons h5 h6 =>
            injection h1 with h1 h7; subst h1; rw [hc] at h5; cases h5
            exact ⟨_, d, post, st2, h7, h6, h3, h4⟩

/-- C23: `Any` is not satisfied iff no component, evaluated from left to right, is. -/
theorem C23_any : eval v id (.any o cs) st = (.ok false, st') ↔
    EachGives v id false cs st st' := by
  simp only [eval]
  induction cs generalizing st with
  | nil =>
    simp only [evalAny, Prod.mk.injEq, true_and]
    exact ⟨fun h => h ▸ .nil, fun h => by cases h; rfl⟩
  | cons c cs ih =>
    simp only [evalAny]
    rcases hc : eval v id c st with ⟨r, st1⟩
    rcases r with e | b
    · exact ⟨fun h => (by cases h), fun h => by cases h with | cons h1 _ => rw [hc] at h1; cases h1⟩
    · cases b
      · rw [ih]
        exact ⟨fun h => .cons hc h, fun h => by
          cases h with | cons h1 h2 => rw [hc] at h1; cases h1; exact h2⟩
      · exact ⟨fun h => (by cases h), fun h => by cases h with | cons h1 _ => rw [hc] at h1; cases h1⟩

/-- C23: `Any` is satisfied (or raises) iff the first component that is not unsatisfied is
satisfied (or raises); the components after that one are not evaluated. -/
theorem C23_any_decided {r : Except Err Bool} (hr : r ≠ .ok false) :
    eval v id (.any o cs) st = (r, st') ↔ FirstOther v id false cs st r st' := by
  simp only [eval]
  induction cs generalizing st with
  | nil =>
    simp only [evalAny, Prod.mk.injEq]
    exact ⟨fun h => absurd h.1.symm hr, fun ⟨pre, _, _, _, h, _⟩ => by cases pre <;> cases h⟩
  | cons c cs ih =>
    simp only [evalAny]
    have key : ∀ r1 st1, eval v id c st = (r1, st1) → r1 ≠ .ok false →
        ((r1, st1) = (r, st') ↔ FirstOther v id false (c :: cs) st r st') := by
      intro r1 st1 hc hr1
      refine ⟨fun h => ?_, ?_⟩
      · cases h; exact ⟨[], c, cs, st, rfl, .nil, hc, hr1⟩
      · rintro ⟨pre, d, post, st2, h1, h2, h3, h4⟩
        cases h2 with
        | nil => injection h1 with h1 _; subst h1; rw [← hc, h3]
        | cons h5 h6 =>
          injection h1 with h1 _; subst h1; rw [hc] at h5; cases h5; exact absurd rfl hr1
    rcases hc : eval v id c st with ⟨r1, st1⟩
    rcases r1 with e | b
    · exact key _ _ hc (by simp)
    · cases b
      · rw [ih]
        constructor
        · rintro ⟨pre, d, post, st2, h1, h2, h3, h4⟩
          exact ⟨c :: pre, d, post, st2, by rw [h1]; rfl, .cons hc h2, h3, h4⟩
        · rintro ⟨pre, d, post, st2, h1, h2, h3, h4⟩
          cases h2 with
          | nil =>
            injection h1 with h1 _; subst h1; rw [hc] at h3; cases h3; exact absurd rfl h4
          | cons h5 h6 =>
            injection h1 with h1 h7; subst h1; rw [hc] at h5; cases h5
            exact ⟨_, d, post, st2, h7, h6, h3, h4⟩
      · exact key _ _ hc (by simp)

/-- C23: `Not` is satisfied iff its component is not, and raises iff it does. -/
theorem C23_not : (∀ b, eval v id (.not o c) st = (.ok b, st') ↔ eval v id c st = (.ok (!b), st')) ∧
    ∀ e, eval v id (.not o c) st = (.error e, st') ↔ eval v id c st = (.error e, st') := by
  simp only [eval]
  generalize eval v id c st = p
  obtain ⟨r, st1⟩ := p
  rcases r with e | b
  · simp [notResult]
  · refine ⟨fun b' => ?_, fun e => by simp [notResult]⟩
    cases b <;> cases b' <;> simp [notResult]

mutual
/-- C23 in any nesting: if no leaf raises, the value of a tree of `All`, `Any` and `Not`
is the value of the corresponding Boolean formula in the values of its leaves. -/
theorem C23_formula (v : View α κ W) (id : Option κ) (st : Store α κ) : ∀ c : Cond α κ W,
    Stateless c → LeavesOk v id st.owner c → ∃ b, eval v id c st = (.ok b, st) ∧
      (b = true ↔ formula (fun c => (eval v id c st).1 = .ok true) c)
  | .leaf o k, _, ⟨b, hb⟩ => ⟨b, by simp only [eval, hb], by simp [formula, eval, hb]⟩
  | .whileNot o f, _, ⟨b, hb⟩ =>
    ⟨!b, by simp only [eval, hb, notResult], by simp [formula, eval, evalLeaf, hb]⟩
  | .all o args, hs, hl => by
    simp only [eval, formula]
    exact C23_formula_all v id st args hs hl
  | .any o args, hs, hl => by
    simp only [eval, formula]
    exact C23_formula_any v id st args hs hl
  | .not o c, hs, hl => by
    obtain ⟨b, h1, h2⟩ := C23_formula v id st c hs hl
    exact ⟨!b, by simp only [eval, h1, notResult], by simp only [formula, ← h2]; simp⟩
  | .nwhen _ _ _, hs, _ => absurd hs (by simp [Stateless])
theorem C23_formula_all (v : View α κ W) (id : Option κ) (st : Store α κ) :
    ∀ cs : List (Cond α κ W), StatelessAll cs → LeavesOkAll v id st.owner cs →
    ∃ b, evalAll v id cs st = (.ok b, st) ∧
      (b = true ↔ formulaAll (fun c => (eval v id c st).1 = .ok true) cs)
  | [], _, _ => ⟨true, rfl, by simp [formulaAll]⟩
  | c :: cs, hs, hl => by
    obtain ⟨b, h1, h2⟩ := C23_formula v id st c hs.1 hl.1
    obtain ⟨b', h3, h4⟩ := C23_formula_all v id st cs hs.2 hl.2
    refine ⟨b && b', ?_, by simp only [formulaAll, ← h2, ← h4, Bool.and_eq_true]⟩
    simp only [evalAll, h1]
    cases b
    · rfl
    · simpa using h3
theorem C23_formula_any (v : View α κ W) (id : Option κ) (st : Store α κ) :
    ∀ cs : List (Cond α κ W), StatelessAll cs → LeavesOkAll v id st.owner cs →
    ∃ b, evalAny v id cs st = (.ok b, st) ∧
      (b = true ↔ formulaAny (fun c => (eval v id c st).1 = .ok true) cs)
  | [], _, _ => ⟨false, rfl, by simp [formulaAny]⟩
  | c :: cs, hs, hl => by
    obtain ⟨b, h1, h2⟩ := C23_formula v id st c hs.1 hl.1
    obtain ⟨b', h3, h4⟩ := C23_formula_any v id st cs hs.2 hl.2
    refine ⟨b || b', ?_, by simp only [formulaAny, ← h2, ← h4, Bool.or_eq_true]⟩
    simp only [evalAny, h1]
    cases b
    · simpa using h3
    · rfl
end

/-- Concrete case: `All(Not(AfterNCalls(0, 1)), Any(Never, Always, JustRan(5)))` in the
initial state; the raising `JustRan` is not reached. -/
example : ∃ st', eval demo.toView none
      (.all 20 [.not 21 (.leaf 22 (.afterNCalls 0 1 .life)),
        .any 23 [.leaf 24 .never, .leaf 25 .always, .leaf 26 (.justRan 5)]]) demo.store
      = (.ok true, st') ∧ evalLeaf demo.toView none (some 0) (.justRan 5) = .error .indexError :=
  ⟨_, rfl, rfl⟩

/-- Concrete case of the formula theorem. -/
example : Stateless (.all 20 [.not 21 (.leaf 22 (.afterNCalls 0 1 .life)), .leaf 24 .always] :
      Cond Nat Nat Unit) ∧
    LeavesOk demo.toView none demo.store.owner
      (.all 20 [.not 21 (.leaf 22 (.afterNCalls 0 1 .life)), .leaf 24 .always]) :=
  ⟨⟨trivial, trivial, trivial⟩, ⟨false, rfl⟩, ⟨true, rfl⟩, trivial⟩

/-! ## C24 -/

section C24
variable {n : Int} {st0 : Store α κ} {l pre post : List (NEval κ)} {e : NEval κ}

theorem nhistory_split (hh : NHistory o c n st0 l st) (hl : l = pre ++ e :: post) :
    ∃ v st1, NHistory o c n st0 pre st1 ∧ e.component = (eval v e.id c st1).1 ∧
      e.result = (eval v e.id (.nwhen o c n) st1).1 := by
  induction hh generalizing post with
  | new => cases pre <;> cases hl
  | other _ _ ih => exact ih hl
  | @eval l st v id hh ih =>
    rcases List.eq_nil_or_concat post with rfl | ⟨post', x, rfl⟩
    · have := List.append_inj' (t₁ := [_]) (t₂ := [e]) hl rfl
      obtain ⟨rfl, h2⟩ := this
      cases h2
      exact ⟨v, st, hh, rfl, rfl⟩
    · rw [List.concat_eq_append, ← List.cons_append, ← List.append_assoc] at hl
      exact ih (List.append_inj' hl rfl).1

/-- C24: over any sequence of evaluations of an `NWhen(c, n)` object, under any execution
ids, an evaluation is satisfied exactly when the component `c` is and fewer than `n`
earlier evaluations under the *same* execution id had the component satisfied.
(`Uses o … c`: the component does not contain the object itself.) -/
theorem C24_first_n (hh : NHistory o c n st0 l st) (hc : Uses o (.nwhen o c n) c)
    (h0 : ∀ i, st0.sat o i = 0) (hl : l = pre ++ e :: post) :
    e.result = .ok true ↔ e.component = .ok true ∧ (evals e.id NEval.hit pre : Int) < n := by
  obtain ⟨v, st1, h1, h2, h3⟩ := nhistory_split hh hl
  obtain ⟨_, k⟩ := h1.sat hc h0 e.id
  rw [h3, h2]
  simp only [eval]
  split
  · rename_i hlt
    have : (evals e.id NEval.hit pre : Int) < n := by omega
    generalize eval v e.id c st1 = p
    obtain ⟨r, st2⟩ := p
    rcases r with x | b
    · simp [nwhenResult]
    · cases b <;> simp [nwhenResult, this]
  · rename_i hlt
    have : ¬ (evals e.id NEval.hit pre : Int) < n := by omega
    simp [this]

/-- C24: the number of satisfied evaluations under an execution id is the number of
evaluations with a satisfied component, up to `n`. -/
theorem C24_at_most_n (hh : NHistory o c n st0 l st) (hc : Uses o (.nwhen o c n) c)
    (h0 : ∀ i, st0.sat o i = 0) (i : Option κ) :
    (evals i NEval.satisfied l : Int) = min (evals i NEval.hit l : Int) (max n 0) := by
  obtain ⟨h1, h2⟩ := hh.sat hc h0 i
  rw [← h1, h2]

/-- C24: once the quota is used up the component is not evaluated any more, so it cannot
raise. -/
theorem C24_then_false (hh : NHistory o c n st0 l st) (hc : Uses o (.nwhen o c n) c)
    (h0 : ∀ i, st0.sat o i = 0) (hl : l = pre ++ e :: post)
    (hn : n ≤ (evals e.id NEval.hit pre : Int)) : e.result = .ok false := by
  obtain ⟨v, st1, h1, h2, h3⟩ := nhistory_split hh hl
  obtain ⟨_, k⟩ := h1.sat hc h0 e.id
  rw [h3]
  simp only [eval]
  rw [if_neg (by omega)]

/-- C24 over the life of a scheduler: whatever runs are made under whatever execution
ids, the object is changed only by its own evaluations, so that `C24_first_n` and
`C24_at_most_n` apply with `s0` any earlier state.  `Placed` and the hypothesis on the
termination conditions say that the object occurs only as that object; `hU`: what the user
does apart from iterating runs changes the object, if at all, by evaluating conditions. -/
theorem C24_life (hl : Life U s0 log s gs) (hp : Placed o (.nwhen o c n) s0)
    (hg : ∀ g ∈ gs, Uses o (.nwhen o c n) g.args.esu ∧ Uses o (.nwhen o c n) g.args.seq)
    (hU : ∀ s s', U s s' → Placed o (.nwhen o c n) s → Placed o (.nwhen o c n) s' ∧
      ∃ st, Evaluated (Uses o (.nwhen o c n)) s.store st ∧ ∀ i, s'.store.sat o i = st.sat o i) :
    ∃ l, NHistory o c n s0.store l s.store ∧
      ∀ pre e post, l = pre ++ e :: post → Uses o (.nwhen o c n) c →
        (∀ i, s0.store.sat o i = 0) →
        (e.result = .ok true ↔ e.component = .ok true ∧ (evals e.id NEval.hit pre : Int) < n) := by
  obtain ⟨_, l, hn⟩ := hl.nhistory hp hg hU
  exact ⟨l, hn, fun pre e post he hc h0 => C24_first_n hn hc h0 he⟩

end C24

/-- A scheduler with graph `0 -> 1` in which node 1 has `NWhen(Always, 2)`. -/
def nwhenDemo : Sys Nat Nat Unit :=
  ((Sys.new [(1, [0])] .standard none 1 demoWorld).alloc 2).addBasic 1
    (.nwhen 0 (.leaf 1 .always) 2)

/-- Four passes. -/
def nwhenArgs : RunArgs Nat Nat Unit :=
  { id := none, esu := .leaf 10 (.afterNPasses 4 .environment_state_update)
    seq := .leaf 11 .never }

/-- Concrete case: node 1 runs in two of four passes. -/
example : yields (runAfter nwhenDemo nwhenArgs 200).1 = [[0], [1], [0], [1], [0], [0]] ∧
    (runAfter nwhenDemo nwhenArgs 200).2.2 = .returned := by decide +kernel

example : Placed 0 (.nwhen 0 (.leaf 1 .always) 2) nwhenDemo ∧
    (∀ i, nwhenDemo.store.sat 0 i = 0) ∧
    Uses 0 (.nwhen 0 (.leaf 1 .always) 2) nwhenArgs.esu ∧
    Uses 0 (.nwhen 0 (.leaf 1 .always) 2) (.leaf 1 .always : Cond Nat Nat Unit) := by
  refine ⟨⟨by decide, fun n c hc => ?_⟩, fun _ => rfl, fun e => (by cases e), fun e => (by cases e)⟩
  have : Dict.get? nwhenDemo.conds n =
      if 1 = n then some (.nwhen 0 (.leaf 1 .always) 2) else none := rfl
  rw [this] at hc
  split at hc
  · cases hc; exact ⟨fun _ => rfl, fun e => by cases e⟩
  · cases hc

/-! ## C25 -/

section C25
variable {d : α} {l : List (List α)}

theorem justRan_of_list (hv : Dict.get? s.execList i = some l) :
    (eval s.toView i (.leaf o (.justRan d)) s.store).1 =
      match l.getLast? with
      | none => .error .indexError
      | some y => .ok (decide (d ∈ y)) := by
  simp only [eval, evalLeaf, justRanFunc, Dict.get, hv]
  rcases List.eq_nil_or_concat l with rfl | ⟨l', y, rfl⟩
  · rfl
  · rw [List.concat_eq_append]
    simp only [List.getLast?_append, List.getLast?_singleton, Option.some_or]
    have : pyIndex (l' ++ [y]) (-1) = .ok y := by
      unfold pyIndex
      simp only [List.length_append, List.length_singleton]
      rw [if_neg (by omega), if_pos (by omega)]
      have : ((l'.length + 1 : Nat) + (-1) : Int).toNat = l'.length := by omega
      rw [this]
      simp [orIndexError]
    rw [this]

/-- C25: over the life of a scheduler, `JustRan(d)` evaluated under an execution id whose
history is recorded from the construction on is satisfied iff something was yielded under
this id before and `d` is in the last set yielded under it, in this or an earlier run. -/
theorem C25_just_ran {g : Graph α} {mode : Mode} {unit : Rat} {w : World α κ W}
    (hl : Life U (Sys.new g mode i unit w) log s gs)
    (hU : Keeps U fun s => Dict.get? s.execList i)
    (hT : Keeps U fun s => (Dict.get? s.timestamps i).isSome) :
    Evaluates s i (.leaf o (.justRan d)) true ↔
      ∃ ys y, yields (under i log) = ys ++ [y] ∧ d ∈ y := by
  unfold Evaluates
  rw [justRan_of_list (C17_history_new hl hU hT)]
  rcases List.eq_nil_or_concat (yields (under i log)) with hn | ⟨ys, y, hy⟩
  · rw [hn]; simp
  · rw [List.concat_eq_append] at hy
    rw [hy]
    simp only [List.getLast?_append, List.getLast?_singleton, Option.some_or, Except.ok.injEq,
      decide_eq_true_eq]
    exact ⟨fun h => ⟨ys, y, rfl, h⟩, fun ⟨ys', y', h1, h2⟩ => by
      have := (List.append_inj' h1 rfl).2; cases this; exact h2⟩

/-- C25: if something was yielded and `d` is not in the last set, `JustRan(d)` is not
satisfied (it does not raise). -/
theorem C25_not_just_ran {g : Graph α} {mode : Mode} {unit : Rat} {w : World α κ W}
    (hl : Life U (Sys.new g mode i unit w) log s gs)
    (hU : Keeps U fun s => Dict.get? s.execList i)
    (hT : Keeps U fun s => (Dict.get? s.timestamps i).isSome) :
    Evaluates s i (.leaf o (.justRan d)) false ↔
      ∃ ys y, yields (under i log) = ys ++ [y] ∧ d ∉ y := by
  unfold Evaluates
  rw [justRan_of_list (C17_history_new hl hU hT)]
  rcases List.eq_nil_or_concat (yields (under i log)) with hn | ⟨ys, y, hy⟩
  · rw [hn]; simp
  · rw [List.concat_eq_append] at hy
    rw [hy]
    simp only [List.getLast?_append, List.getLast?_singleton, Option.some_or, Except.ok.injEq,
      decide_eq_false_iff_not]
    exact ⟨fun h => ⟨ys, y, rfl, h⟩, fun ⟨ys', y', h1, h2⟩ => by
      have := (List.append_inj' h1 rfl).2; cases this; exact h2⟩

/-- C25: as long as nothing was yielded under the id, `JustRan` is not satisfied: it
raises `IndexError`. -/
theorem C25_nothing_yielded {g : Graph α} {mode : Mode} {unit : Rat} {w : World α κ W}
    (hl : Life U (Sys.new g mode i unit w) log s gs)
    (hU : Keeps U fun s => Dict.get? s.execList i)
    (hT : Keeps U fun s => (Dict.get? s.timestamps i).isSome)
    (hn : yields (under i log) = []) :
    (eval s.toView i (.leaf o (.justRan d)) s.store).1 = .error .indexError := by
  rw [justRan_of_list (C17_history_new hl hU hT), hn]; rfl

/-- C25 for any execution id: relative to the history it had in an earlier state. -/
theorem C25_from (hl : Life U s0 log s gs) (hU : Keeps U fun s => Dict.get? s.execList i)
    (hT : Keeps U fun s => (Dict.get? s.timestamps i).isSome) {l0}
    (hl0 : Dict.get? s0.execList i = some l0)
    (ht : (Dict.get? s0.timestamps i).isSome ∨ ∀ g ∈ gs, g.args.id = i → g.abs = false) :
    Evaluates s i (.leaf o (.justRan d)) true ↔
      ∃ ys y, l0 ++ yields (under i log) = ys ++ [y] ∧ d ∈ y := by
  unfold Evaluates
  rw [justRan_of_list (C17_history hl hU hT hl0 ht)]
  rcases List.eq_nil_or_concat (l0 ++ yields (under i log)) with hn | ⟨ys, y, hy⟩
  · rw [hn]; simp
  · rw [List.concat_eq_append] at hy
    rw [hy]
    simp only [List.getLast?_append, List.getLast?_singleton, Option.some_or, Except.ok.injEq,
      decide_eq_true_eq]
    exact ⟨fun h => ⟨ys, y, rfl, h⟩, fun ⟨ys', y', h1, h2⟩ => by
      have := (List.append_inj' h1 rfl).2; cases this; exact h2⟩

end C25

/-- Graph `0 -> 1` with `JustRan(0)` as the condition of node 1. -/
def justRanDemo : Sys Nat Nat Unit :=
  ((Sys.new [(1, [0])] .standard none 1 demoWorld).alloc 1).addBasic 1 (.leaf 0 (.justRan 0))

example : yields (runAfter justRanDemo demoArgs 60).1 = [[0], [1]] := by decide +kernel

/-- Concrete case of the exception: `JustRan(1)` as the condition of the source node 0
aborts the first run. -/
example : (runAfter (((Sys.new [(1, [0])] .standard none 1 demoWorld).alloc 1).addBasic 0
    (.leaf 0 (.justRan 1)) : Sys Nat Nat Unit) demoArgs 60).2.2 = .raised .indexError := by
  decide +kernel

/-! ## C26 -/

section C26
variable {d : α} {n : Int} {ts : TimeScale} {o1 o2 o3 : Nat}

/-- The value of a leaf condition in a state. -/
def value (v : View α κ W) (id : Option κ) (st : Store α κ) (k : Leaf α κ W) : Except Err Bool :=
  (eval v id (.leaf 0 k) st).1

/-- C26: `BeforeNCalls(d, n)` is satisfied iff `AfterNCalls(d, n)` is not satisfied; one
raises iff the other does. -/
theorem C26_before_after (v : View α κ W) (id : Option κ) (st : Store α κ) :
    value v id st (.beforeNCalls d n ts) = notResult (value v id st (.afterNCalls d n ts)) := by
  simp only [value, eval, evalLeaf, callCount]
  cases v.total id ts d with
  | error e => rfl
  | ok k =>
    simp only [notResult, Except.ok.injEq]
    by_cases h : (k : Int) < n
    · rw [decide_eq_true h, decide_eq_false (by omega)]; rfl
    · rw [decide_eq_false h, decide_eq_true (by omega)]; rfl

/-- C26: `AfterCall(d, n)` is `AfterNCalls(d, n + 1)`. -/
theorem C26_after_call (v : View α κ W) (id : Option κ) (st : Store α κ) :
    value v id st (.afterCall d n ts) = value v id st (.afterNCalls d (n + 1) ts) := by
  simp only [value, eval, evalLeaf, callCount]
  cases v.total id ts d with
  | error e => rfl
  | ok k =>
    simp only [Except.ok.injEq]
    by_cases h : (k : Int) > n
    · rw [decide_eq_true h, decide_eq_true (by omega)]
    · rw [decide_eq_false h, decide_eq_false (by omega)]

/-- C26: `AtNCalls(d, n)` is `AfterNCalls(d, n)` and `BeforeNCalls(d, n + 1)`. -/
theorem C26_at (v : View α κ W) (id : Option κ) (st : Store α κ) :
    value v id st (.atNCalls d n ts) = .ok true ↔
      value v id st (.afterNCalls d n ts) = .ok true ∧
      value v id st (.beforeNCalls d (n + 1) ts) = .ok true := by
  simp only [value, eval, evalLeaf, callCount]
  cases v.total id ts d with
  | error e => simp
  | ok k => simp only [Except.ok.injEq, decide_eq_true_eq]; omega

/-- The number of calls shown by `AfterNCalls`: `Calls v id st ts d k` says that
`AfterNCalls(d, n)` is satisfied exactly for `n ≤ k`. -/
def Calls (v : View α κ W) (id : Option κ) (st : Store α κ) (ts : TimeScale) (d : α) (k : Nat) :
    Prop := ∀ n : Int, value v id st (.afterNCalls d n ts) = .ok (decide (n ≤ k))

theorem calls_iff {k : Nat} : Calls v id st ts d k ↔ v.total id ts d = .ok k := by
  simp only [Calls, value, eval, evalLeaf, callCount]
  cases v.total id ts d with
  | error e => simp
  | ok m =>
    simp only [Except.ok.injEq]
    constructor
    · intro hh
      have h1 := hh m
      have h2 := hh k
      have e1 : decide ((m : Int) ≤ k) = true := by rw [← h1]; simp
      have e2 : decide ((m : Int) ≥ k) = true := by rw [h2]; simp
      simp only [decide_eq_true_eq] at e1 e2
      omega
    · intro hh n; subst hh; rfl

/-- C26: `AfterNCallsCombined(d1, ..., n)` is satisfied iff the calls of the dependencies
(as shown by `AfterNCalls`) add up to at least `n`. -/
theorem C26_combined (v : View α κ W) (id : Option κ) (st : Store α κ) (ds : List α) :
    value v id st (.afterNCallsCombined ds (some n) ts) = .ok true ↔
      ∃ calls : α → Nat, (∀ d ∈ ds, Calls v id st ts d (calls d)) ∧
        n ≤ ((ds.map calls).sum : Int) := by
  have key : ∀ (ds : List α) (calls : α → Nat), (∀ d ∈ ds, Calls v id st ts d (calls d)) →
      sumCalls v id ts ds = .ok (ds.map calls).sum := by
    intro ds calls
    induction ds with
    | nil => intro _; rfl
    | cons d ds ih =>
      intro h
      simp only [sumCalls]
      rw [calls_iff.1 (h d (by simp))]
      dsimp only
      rw [ih fun x hx => h x (by simp [hx])]
      simp
  have key2 : ∀ (ds : List α) m, sumCalls v id ts ds = .ok m →
      ∀ d ∈ ds, ∃ k, v.total id ts d = .ok k := by
    intro ds
    induction ds with
    | nil => intro _ _ d hd; cases hd
    | cons d ds ih =>
      intro m h x hx
      simp only [sumCalls] at h
      split at h
      · cases h
      · rename_i k hk
        split at h
        · cases h
        · rename_i m' hm
          rcases List.mem_cons.1 hx with rfl | hx
          · exact ⟨k, hk⟩
          · exact ih _ hm x hx
  simp only [value, eval, evalLeaf]
  constructor
  · intro h
    split at h
    · cases h
    · rename_i k hk
      let calls : α → Nat := fun d => match v.total id ts d with | .ok k => k | .error _ => 0
      have hc : ∀ d ∈ ds, Calls v id st ts d (calls d) := by
        intro d hd
        obtain ⟨m, hm⟩ := key2 ds k hk d hd
        rw [calls_iff, hm]
        simp only [calls, hm]
      have := key ds calls hc
      rw [hk] at this
      simp only [Except.ok.injEq, decide_eq_true_eq] at h this
      exact ⟨calls, hc, by rw [← this]; exact h⟩
  · rintro ⟨calls, h1, h2⟩
    rw [key ds calls h1]
    simp only [Except.ok.injEq, decide_eq_true_eq]
    exact h2

/-- C26: `AllHaveRun(d1, ...)` is satisfied iff `AfterNCalls(d, 1)` is for each of its
nodes (with no arguments: for all nodes of the graph). -/
theorem C26_all_have_run (v : View α κ W) (id : Option κ) (st : Store α κ) (ds : List α) :
    value v id st (.allHaveRun ds ts) = .ok true ↔
      ∀ d ∈ (if ds = [] then v.nodes else ds), value v id st (.afterNCalls d 1 ts) = .ok true := by
  have key : ∀ ds : List α, allHaveRunFunc v id ts ds = .ok true ↔
      ∀ d ∈ ds, value v id st (.afterNCalls d 1 ts) = .ok true := by
    intro ds
    induction ds with
    | nil => simp [allHaveRunFunc]
    | cons d ds ih =>
      simp only [allHaveRunFunc, List.mem_cons, forall_eq_or_imp, ← ih]
      simp only [value, eval, evalLeaf, callCount]
      cases v.total id ts d with
      | error e => cases e <;> simp
      | ok k =>
        dsimp only
        by_cases hk : k < 1
        · rw [if_pos hk]; simp; omega
        · rw [if_neg hk]
          have : (k : Int) ≥ 1 := by omega
          simp [this]
  simp only [value, eval, evalLeaf]
  exact key _

theorem runTotal (hr : Reach E a s0 abs h s pc)
    (hE : Keeps E (fun s => Dict.get? s.countsTotal a.id)) (hd : d ∈ s.nodes) :
    s.total a.id .environment_state_update d = .ok ((selections h).count d) := by
  obtain ⟨f, _, hf, _, _, _, h3⟩ := C11_run_count hr hE
  unfold View.total
  rw [hf]
  dsimp only
  rw [if_pos hd, h3]

theorem runTotal_mem {k : Nat} (hv : v.total id ts d = .ok k) : d ∈ v.nodes := by
  unfold View.total at hv
  split at hv
  · cases hv
  · split at hv
    · assumption
    · cases hv

/-- C26: within a run, `AfterNCalls(d, n)` over the run (`ENVIRONMENT_STATE_UPDATE`), once
satisfied, stays satisfied: `h` is an earlier point, `h'` a later point of the run. -/
theorem C26_after_stays {n : Int} (hr : Reach E a s0 abs h s pc)
    (hr' : Reach E a s0 abs h' s' pc') (hp : h <+: h')
    (hE : Keeps E (fun s => Dict.get? s.countsTotal a.id)) (hN : Keeps E (fun s => s.nodes))
    (hv : Evaluates s a.id (.leaf o (.afterNCalls d n .environment_state_update)) true) :
    Evaluates s' a.id (.leaf o (.afterNCalls d n .environment_state_update)) true := by
  simp only [Evaluates, eval, evalLeaf, callCount] at hv ⊢
  cases ht : s.total a.id .environment_state_update d with
  | error e => rw [ht] at hv; cases hv
  | ok k =>
    have hd := runTotal_mem ht
    have hd' : d ∈ s'.nodes := by rw [hr'.keepNodes hN, ← hr.keepNodes hN]; exact hd
    have hk := (runTotal hr hE hd).symm.trans ht
    rw [ht] at hv
    rw [runTotal hr' hE hd']
    simp only [Except.ok.injEq, decide_eq_true_eq] at hv hk ⊢
    obtain ⟨t, rfl⟩ := hp
    have : (selections (h ++ t)).count d = (selections h).count d + (selections t).count d := by
      unfold selections; rw [List.filterMap_append, List.count_append]
    rw [this]; omega

/-- C26: the same for `AfterCall`. -/
theorem C26_after_call_stays {n : Int} (hr : Reach E a s0 abs h s pc)
    (hr' : Reach E a s0 abs h' s' pc') (hp : h <+: h')
    (hE : Keeps E (fun s => Dict.get? s.countsTotal a.id)) (hN : Keeps E (fun s => s.nodes))
    (hv : Evaluates s a.id (.leaf o (.afterCall d n .environment_state_update)) true) :
    Evaluates s' a.id (.leaf o (.afterCall d n .environment_state_update)) true := by
  have h1 := C26_after_call (d := d) (n := n) (ts := .environment_state_update) s.toView a.id s.store
  have h2 := C26_after_call (d := d) (n := n) (ts := .environment_state_update) s'.toView a.id s'.store
  exact h2.trans (C26_after_stays hr hr' hp hE hN (h1.symm.trans hv))

/-- C26: the same for `AllHaveRun`. -/
theorem C26_all_have_run_stays {ds : List α} (hr : Reach E a s0 abs h s pc)
    (hr' : Reach E a s0 abs h' s' pc') (hp : h <+: h')
    (hE : Keeps E (fun s => Dict.get? s.countsTotal a.id)) (hN : Keeps E (fun s => s.nodes))
    (hv : Evaluates s a.id (.leaf o (.allHaveRun ds .environment_state_update)) true) :
    Evaluates s' a.id (.leaf o (.allHaveRun ds .environment_state_update)) true := by
  refine (C26_all_have_run s'.toView a.id s'.store ds).2 fun d hd => ?_
  have h1 := (C26_all_have_run s.toView a.id s.store ds).1 hv d (by
    rw [hr.keepNodes hN, ← hr'.keepNodes hN]; exact hd)
  exact C26_after_stays (o := 0) hr hr' hp hE hN h1

end C26

theorem steps_extend (a : RunArgs α κ W) (abs : Bool) (k : Nat) (h : History α κ W)
    (s : Sys α κ W) (pc : PC α) : h <+: (steps a abs k h s pc).1 := by
  induction k generalizing h s pc with
  | zero => exact List.prefix_refl _
  | succ k ih =>
    refine List.IsPrefix.trans ?_ (ih _ _ _)
    exact List.prefix_append _ _

/-- Concrete case: in the demo run `AfterNCalls(0, 1)` is satisfied after 7 steps, an
earlier point than 40 steps. -/
example : Evaluates (demoAfter 7).2.1 none (.leaf 0 (.afterNCalls 0 1 .environment_state_update))
      true ∧ (demoAfter 7).1 <+: (demoAfter 40).1 := by
  refine ⟨by unfold Evaluates; decide +kernel, ?_⟩
  obtain ⟨s, h1⟩ : ∃ s, demo.start demoArgs = (s, .ok false) :=
    ⟨(demo.start demoArgs).1, Prod.ext rfl demo_start⟩
  unfold demoAfter exec
  rw [h1]
  dsimp only
  rw [show 40 = 7 + 33 from rfl, steps_add]
  exact steps_extend _ _ _ _ _ _

end GS.Props

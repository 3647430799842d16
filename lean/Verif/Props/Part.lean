import Verif.PartGraph
/-!
# C72: a part of a scheduler that nothing outside it influences
-/

set_option linter.unusedSectionVars false

namespace GS.Props
open Spec
variable {α κ W : Type _} [DecidableEq α] [DecidableEq κ]
variable {X : α → Bool} {a a' : RunArgs α κ W} {s0 s t0 t : Sys α κ W}
variable {w w' : List (List α) → World α κ W} {h h' : History α κ W} {pc pc' : PC α} {n n' : Nat}

/-- C72: two schedulers run, with any termination conditions that are not satisfied so far.
When the runs have begun they agree on the part `X`: places in the queue, conditions, which
look at the part only (or are `NWhen` of such a condition, used for one node only), and counts.
The termination conditions do not use the `NWhen` objects of the part.  Everything else may differ: other nodes, their edges and
conditions, the number of consideration sets.  What the two consumers do to the nodes of the part
depends only on what was yielded of the part.  Then each pass that has come to its end in
both runs yielded the same sets of nodes of the part, in the same order. -/
theorem C72_part (hid : a'.id = a.id) (hp : PartAgrees X a.id (s0.start a).1 (t0.start a').1)
    (hE : EndsOutside X a (s0.start a).1) (hE' : EndsOutside X a' (t0.start a').1)
    (hw : ∀ ys ys', part X ys' = part X ys → SameWorld X (w ys) (w' ys'))
    (h0 : SameWorld X s0.world (w [])) (h0' : SameWorld X t0.world (w' []))
    (hr : Unended w a s0 false n h s pc) (hr' : Unended w' a' t0 false n' h' t pc')
    {j : Nat} {p p' : List (List α)} (hj : (completed h pc)[j]? = some p)
    (hj' : (completed h' pc')[j]? = some p') : part X p' = part X p := by
  have l1 := (List.getElem?_eq_some_iff.1 hj).1
  have l2 := (List.getElem?_eq_some_iff.1 hj').1
  obtain ⟨ys, s1, g⟩ := hr.placed.earlier (m := j + 1) l1
  obtain ⟨ys', t1, g'⟩ := hr'.placed.earlier (m := j + 1) l2
  rw [completed_take l1] at g
  rw [completed_take l2] at g'
  have k := ((Pos.agree hid (fun s1 e => by rw [e] at hE; exact hE) (fun t1 e => by rw [e] at hE'; exact hE')
    (fun s1 t1 e e' => by rw [e, e'] at hp; exact hp) hw h0 h0' (j + 1)).1 g g').2.2
  have k := congrArg (fun l => l[j]?) k
  simpa [hj, hj'] using k

/-- C72: so one of the two runs yielded, of the part, pass by pass what the other one yielded. -/
theorem C72_prefix (hid : a'.id = a.id) (hp : PartAgrees X a.id (s0.start a).1 (t0.start a').1)
    (hE : EndsOutside X a (s0.start a).1) (hE' : EndsOutside X a' (t0.start a').1)
    (hw : ∀ ys ys', part X ys' = part X ys → SameWorld X (w ys) (w' ys'))
    (h0 : SameWorld X s0.world (w [])) (h0' : SameWorld X t0.world (w' []))
    (hr : Unended w a s0 false n h s pc) (hr' : Unended w' a' t0 false n' h' t pc')
    (hl : (completed h pc).length ≤ (completed h' pc').length) :
    (completed h pc).map (part X) <+: (completed h' pc').map (part X) := by
  rw [List.prefix_iff_eq_take]
  apply List.ext_getElem?
  intro j
  rw [List.length_map, List.getElem?_take]
  by_cases hj : j < (completed h pc).length
  · rw [if_pos hj, List.getElem?_map, List.getElem?_map]
    rw [List.getElem?_eq_getElem hj, List.getElem?_eq_getElem (Nat.lt_of_lt_of_le hj hl)]
    exact congrArg some (C72_part hid hp hE hE' hw h0 h0' hr hr' (List.getElem?_eq_getElem hj)
      (List.getElem?_eq_getElem (Nat.lt_of_lt_of_le hj hl))).symm
  · rw [if_neg hj]; simp [Nat.le_of_not_lt hj]

/-- C72: in terms of the graph.  The part contains the senders of its nodes; these have the same
senders in both graphs, and either the same condition, which looks at the part only, or none.
Nodes that receive from the part, or have nothing to do with it, may be in one graph
and not in the other, with any conditions.  Then every pass that has come to its end in both runs
yielded the same sets of nodes of the part. -/
theorem C72_graph (hid : a'.id = a.id) (hp : PartGiven X a.id s0 t0) (hE : EndsOutside X a s0)
    (hE' : EndsOutside X a' t0)
    (hw : ∀ ys ys', part X ys' = part X ys → SameWorld X (w ys) (w' ys'))
    (h0 : SameWorld X s0.world (w [])) (h0' : SameWorld X t0.world (w' []))
    (hr : Unended w a s0 false n h s pc) (hr' : Unended w' a' t0 false n' h' t pc')
    {j : Nat} {p p' : List (List α)} (hj : (completed h pc)[j]? = some p)
    (hj' : (completed h' pc')[j]? = some p') : part X p' = part X p :=
  have e := unended_start hr
  have e' := unended_start hr'
  C72_part hid (hp.start hid e e')
    (by have := hE.start (fun n hn => (hp.nodes n hn).1) e; rwa [congrArg Prod.fst e])
    (by have := hE'.start (fun n hn => (hp.nodes n hn).2) e'; rwa [congrArg Prod.fst e'])
    hw h0 h0' hr hr' hj hj'

/-! ## A concrete case -/

theorem scriptAfter_unended {abs : Bool} (hs : (s0.start a).2 = .ok abs)
    (ha : ∀ s : Sys α κ W, Unsatisfied s a) (k : Nat) :
    Unended w a s0 abs k (scriptAfter w a s0 k).1 (scriptAfter w a s0 k).2.1
      (scriptAfter w a s0 k).2.2 := by
  induction k with
  | zero => exact .start (Prod.ext rfl hs)
  | succ k ih =>
    refine .step ih ?_ ?_
    · generalize (scriptAfter w a s0 k).2.2 = pc
      cases pc <;> first | exact ha _ | exact fun _ => ha _ | exact trivial
    · have e : (s0.start a).2.toOption.getD false = abs := by rw [hs]; rfl
      conv => lhs; rw [← e]
      rfl

/-- `run` with termination conditions that are never satisfied. -/
def endless : RunArgs Nat Nat Unit :=
  { id := none, esu := .leaf 10 .never, seq := .leaf 11 .never }

theorem endless_unsatisfied (s : Sys Nat Nat Unit) : Unsatisfied s endless := ⟨_, _, rfl, rfl⟩

/-- Nodes `0` and `1`. -/
def inSmall (n : Nat) : Bool := n == 0 || n == 1

theorem endless_apart (s : Sys Nat Nat Unit)
    (h : ∀ n o d k, inSmall n = true → Dict.get? s.conds n = some (.nwhen o d k) → o ≠ 10 ∧ o ≠ 11 := by
      intro n o d k hn hd
      have : n = 0 ∨ n = 1 := by simpa [inSmall] using hn
      rcases this with rfl | rfl <;> cases hd <;> decide) : EndsOutside inSmall endless s :=
  fun n o d k hn hd => ⟨Ne.symm (h n o d k hn hd).1, Ne.symm (h n o d k hn hd).2⟩

/-- Graph `0 -> 1`; node `1` has the condition `EveryNCalls(0, 2)`. -/
def small : Sys Nat Nat Unit :=
  ((Sys.new [(1, [0])] .standard none 1 demoWorld).alloc 1).addBasic 1 (.leaf 0 (.everyNCalls 0 2))

/-- The same with nodes `2` and `3`, of which `3` receives from `1` and `2` and runs `AtPass(1)`;
and an object that was made before the condition of `1`. -/
def large : Sys Nat Nat Unit :=
  (((Sys.new [(2, []), (1, [0]), (3, [1, 2])] .standard none 1 demoWorld).alloc 2).addBasic 3
    (.leaf 0 (.atPass 1 .environment_state_update))).addBasic 1 (.leaf 1 (.everyNCalls 0 2))

theorem small_large : PartAgrees inSmall none (small.start endless).1 (large.start endless).1 := by
  have cases2 : ∀ n, inSmall n = true → n = 0 ∨ n = 1 := by
    intro n hn; simpa [inSmall] using hn
  refine ⟨fun i => ?_, fun n hn => ?_, fun n hn => ?_, ?_, ?_, ⟨[], [], ?_, ?_, rfl⟩⟩
  · show (setAt [[0, 2], [1], [3]] i).filter inSmall = (setAt [[0], [1]] i).filter inSmall
    match i with
    | 0 => rfl
    | 1 => rfl
    | 2 => rfl
    | i + 3 => rfl
  · rcases cases2 n hn with rfl | rfl <;> decide +kernel
  · rcases cases2 n hn with rfl | rfl
    · exact ⟨_, _, rfl, rfl, .inl ⟨rfl, trivial, .inl rfl⟩⟩
    · exact ⟨_, _, rfl, rfl, .inl ⟨rfl, rfl, .inr ⟨rfl, 1, rfl, rfl⟩⟩⟩
  · exact ⟨_, _, rfl, rfl, fun _ _ _ => rfl⟩
  · exact ⟨_, _, rfl, rfl, fun _ _ _ _ => rfl⟩
  · exact Shows.new
  · exact Shows.new

/-- Both schedulers run for four passes; the sets yielded differ, those of the part do not. -/
example : PartAgrees inSmall none (small.start endless).1 (large.start endless).1 ∧
    EndsOutside inSmall endless (small.start endless).1 ∧
    EndsOutside inSmall endless (large.start endless).1 ∧
    (∀ k, Unended constWorld endless small false k (scriptAfter constWorld endless small k).1
      (scriptAfter constWorld endless small k).2.1 (scriptAfter constWorld endless small k).2.2) ∧
    (∀ k, Unended constWorld endless large false k (scriptAfter constWorld endless large k).1
      (scriptAfter constWorld endless large k).2.1 (scriptAfter constWorld endless large k).2.2) ∧
    (completed (scriptAfter constWorld endless small 40).1
      (scriptAfter constWorld endless small 40).2.2).take 2 = [[[0]], [[0], [1]]] ∧
    (completed (scriptAfter constWorld endless large 60).1
      (scriptAfter constWorld endless large 60).2.2).take 2 =
      [[[0, 2]], [[0, 2], [1], [3]]] :=
  ⟨small_large, endless_apart _, endless_apart _, fun k => scriptAfter_unended (by decide +kernel) endless_unsatisfied k,
    fun k => scriptAfter_unended (by decide +kernel) endless_unsatisfied k,
    by decide +kernel, by decide +kernel⟩

/-- The two schedulers before their runs: node `0` has no condition, node `1` has the same
one. -/
example : PartGiven inSmall none small large := by
  have cases2 : ∀ n, inSmall n = true → n = 0 ∨ n = 1 := by
    intro n hn; simpa [inSmall] using hn
  refine ⟨by decide +kernel, by decide +kernel, by decide +kernel, by decide +kernel,
    by decide +kernel, by decide +kernel, fun n hn => ?_, fun n hn => ?_, ?_,
    ⟨[], [], Shows.new, Shows.new, rfl⟩⟩
  · rcases cases2 n hn with rfl | rfl <;> decide +kernel
  · rcases cases2 n hn with rfl | rfl
    · exact .inl ⟨rfl, rfl⟩
    · refine .inr ⟨_, _, rfl, rfl, .inl ⟨rfl, rfl, .inr ⟨rfl, 1, rfl, rfl⟩⟩, ?_, ?_⟩
      · rintro o rfl; decide +kernel
      · rintro o rfl; decide +kernel
  · exact ⟨_, _, rfl, rfl, fun _ _ _ => rfl⟩

/-- Graph `0 -> 1`; node `0` has the condition `NWhen(Always(), 3)`; with or without a node
`2` that runs whenever it can, and an object made before. -/
def thrice (more : Bool) : Sys Nat Nat Unit :=
  let o := if more then 1 else 0
  ((Sys.new ([(1, [0])] ++ if more then [(2, [])] else []) .standard none 1 demoWorld).alloc
    (o + 2)).addBasic 0 (.nwhen (o + 1) (.leaf o .always) 3)

/-- The hypotheses of `C72_graph` with `NWhen`: node `0` runs three times in both schedulers,
although the counter of its condition is asked in more rounds when node `2` is there. -/
example : PartGiven inSmall none (thrice false) (thrice true) ∧
    EndsOutside inSmall endless (thrice false) ∧ EndsOutside inSmall endless (thrice true) ∧
    (completed (scriptAfter constWorld endless (thrice false) 80).1
      (scriptAfter constWorld endless (thrice false) 80).2.2).take 4 =
      [[[0], [1]], [[0], [1]], [[0], [1]], [[]]] ∧
    (completed (scriptAfter constWorld endless (thrice true) 80).1
      (scriptAfter constWorld endless (thrice true) 80).2.2).take 4 =
      [[[0, 2], [1]], [[0, 2], [1]], [[0, 2], [1]], [[2]]] := by
  have cases2 : ∀ n, inSmall n = true → n = 0 ∨ n = 1 := by
    intro n hn; simpa [inSmall] using hn
  refine ⟨⟨by decide +kernel, by decide +kernel, by decide +kernel, by decide +kernel,
    by decide +kernel, by decide +kernel, fun n hn => ?_, fun n hn => ?_, ?_,
    ⟨[], [], Shows.new, Shows.new, rfl⟩⟩, endless_apart _, endless_apart _,
    by decide +kernel, by decide +kernel⟩
  · rcases cases2 n hn with rfl | rfl <;> decide +kernel
  · rcases cases2 n hn with rfl | rfl
    · refine .inr ⟨_, _, rfl, rfl, .inr ⟨1, .leaf 0 .always, 2, .leaf 1 .always, 3, rfl, rfl,
        ⟨rfl, trivial, .inl rfl⟩, ⟨by decide +kernel, rfl, (nofun : (0:Nat) ≠ 1), ?_⟩,
        ⟨by decide +kernel, rfl, (nofun : (1:Nat) ≠ 2), ?_⟩, rfl⟩, ?_, ?_⟩
      · intro x d hx hd
        have : (if (0 : Nat) = x then some (Cond.nwhen 1 (.leaf 0 .always) 3) else none) = some d := hd
        rw [if_neg (Ne.symm hx)] at this; cases this
      · intro x d hx hd
        have : (if (0 : Nat) = x then some (Cond.nwhen 2 (.leaf 1 .always) 3) else none) = some d := hd
        rw [if_neg (Ne.symm hx)] at this; cases this
      · rintro o (rfl | rfl) <;> decide +kernel
      · rintro o (rfl | rfl) <;> decide +kernel
    · exact .inl ⟨rfl, rfl⟩
  · exact ⟨_, _, rfl, rfl, fun _ _ _ => rfl⟩

/-! ## `NWhen` inside other conditions -/

/-- Node `0` with the condition `All(NWhen(Always(), 2), AtPass(1))`; with or without a node `1`
that runs whenever it can. -/
def nested (more : Bool) : Sys Nat Nat Unit :=
  ((Sys.new ([(0, [])] ++ if more then [(1, [])] else []) .standard none 1 demoWorld).alloc
    4).addBasic 0 (.all 3 [.nwhen 1 (.leaf 0 .always) 2, .leaf 2 (.atPass 1 .environment_state_update)])

/-- C72 does not hold of parts with `NWhen` inside other conditions: the unrelated node `1` causes
another round in which `NWhen` is asked, and counts, although node `0` does not run; so
its quota is used up before `AtPass(1)` holds. -/
theorem C72_nwhen_inside :
    (∀ i, (setAt (nested true).queue i).filter (fun n => decide (n = 0)) =
      (setAt (nested false).queue i).filter fun n => decide (n = 0)) ∧
    (completed (scriptAfter constWorld endless (nested false) 40).1
      (scriptAfter constWorld endless (nested false) 40).2.2).take 3 = [[[]], [[0]], [[]]] ∧
    (completed (scriptAfter constWorld endless (nested true) 40).1
      (scriptAfter constWorld endless (nested true) 40).2.2).take 3 = [[[1]], [[1]], [[1]]] := by
  refine ⟨fun i => ?_, by decide +kernel, by decide +kernel⟩
  show (setAt [[0, 1]] i).filter (fun n => decide (n = 0)) =
    (setAt [[0]] i).filter fun n => decide (n = 0)
  match i with
  | 0 => rfl
  | i + 1 => rfl

/-! ## Conditions that look at the last set -/

/-- Graph `0 -> 1 -> 2`; `1` never runs and `2` has the condition `JustRan(0)`; with or without
a node `3` that receives from `0`. -/
def lastSet (more : Bool) : Sys Nat Nat Unit :=
  (((Sys.new ([(1, [0]), (2, [1])] ++ if more then [(3, [0])] else []) .standard none 1
    demoWorld).alloc 2).addBasic 1 (.leaf 0 .never)).addBasic 2 (.leaf 1 (.justRan 0))

/-- C72 does not hold of parts with `JustRan`, although it names nodes of the part only: a new
node that runs in between makes it unsatisfied. -/
theorem C72_just_ran :
    (∀ i, (setAt (lastSet true).queue i).filter (fun n => decide (n < 3)) =
      (setAt (lastSet false).queue i).filter fun n => decide (n < 3)) ∧
    (completed (scriptAfter constWorld endless (lastSet false) 20).1
      (scriptAfter constWorld endless (lastSet false) 20).2.2).head? =
      some [[0], [2]] ∧
    (completed (scriptAfter constWorld endless (lastSet true) 25).1
      (scriptAfter constWorld endless (lastSet true) 25).2.2).head? =
      some [[0], [3]] := by
  refine ⟨fun i => ?_, by decide +kernel, by decide +kernel⟩
  show (setAt [[0], [1, 3], [2]] i).filter (fun n => decide (n < 3)) =
    (setAt [[0], [1], [2]] i).filter fun n => decide (n < 3)
  match i with
  | 0 => rfl
  | 1 => rfl
  | 2 => rfl
  | i + 3 => rfl

end GS.Props

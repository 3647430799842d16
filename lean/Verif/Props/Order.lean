import Verif.OrderStart
import Verif.Props.Graph
import Verif.Props.Demo
/-!
# C31

The claim as listed is false (`C31_order_matters`): conditions that count the calls of
nodes of the same consideration set see the order in which the set is iterated.  Proved
is the claim for the conditions `Spec.OrderFree` describes, in particular for schedulers
without conditions.
-/

set_option linter.unusedSectionVars false

namespace GS.Props
open Spec TimeScale
variable {α κ W : Type _} [DecidableEq α] [DecidableEq κ]
variable {a : RunArgs α κ W} {abs abs' : Bool} {s0 s0' s1 s s' : Sys α κ W}
variable {w : List (List α) → World α κ W} {h h' : History α κ W} {pc pc' : PC α}

theorem corr_at_start (hq : Reordered s0 s0') (hs : s0.start a = (s1, .ok abs))
    (ho : OrderFree s1 a) : ∀ t t', s0.start a = (t, .ok abs) → s0'.start a = (t', .ok abs) →
      Corr a (NotTogether s0.queue) t t' ∧ OrderFree t a ∧ t.queue = s0.queue := by
  intro t t' ht ht'
  have e : t = s1 := by rw [hs] at ht; injection ht with e; exact e.symm
  subst e
  exact ⟨hq.start ht ht', ho, (Sys.start_ok ht).queue⟩

/-- The part of a run before an unfinished choice. -/
theorem scripted_big (hr : Scripted w a s0 abs h s pc) :
    ∃ n s2 pc2, Big w a s0 abs n (yields h) s2 pc2 ∧
      (pc.busy = false ∧ pc2 = pc ∨ pc.busy = true ∧ pc2.failed = false ∧ pc2 ≠ .returned) := by
  cases hb : pc.busy with
  | false => obtain ⟨n, hn⟩ := hr.big.1 hb; exact ⟨n, s, pc, hn, .inl ⟨rfl, rfl⟩⟩
  | true =>
    cases pc with
    | choosing c =>
      obtain ⟨n, s2, idx, ch, _, _, h1, _⟩ := hr.big.2 c rfl
      exact ⟨n, s2, _, h1, .inr ⟨rfl, rfl, by simp⟩⟩
    | _ => cases hb

theorem scripted_start (hr : Scripted w a s0 abs h s pc) : ∃ t, s0.start a = (t, .ok abs) := by
  induction hr with
  | start hs => exact ⟨_, hs⟩
  | step _ _ ih => exact ih

/-- C31 for the conditions `OrderFree` describes: two runs of the same scheduler whose
consideration sets are iterated in different orders yield, at every position, sets with
the same members; and when one has returned, the other yields no more sets unless it
raises.  `s1` is the scheduler after the first line of `run()`, where every node has its
condition.  The consumer may set the outside world between two sets, but not depending on
the order of iteration. -/
theorem C31_order_partial (hq : Reordered s0 s0') (hs : s0.start a = (s1, .ok abs))
    (ho : OrderFree s1 a) (hw : ∀ ys ys', SameSets ys ys' → w ys' = w ys)
    (hr : Scripted w a s0 abs h s pc) (hr' : Scripted w a s0' abs' h' s' pc') :
    abs' = abs ∧
    (∀ (k : Nat) (x y : List α), (yields h)[k]? = some x → (yields h')[k]? = some y →
      SameMembers x y) ∧
    (pc = .returned → (∀ e, pc' ≠ .raised e) → (yields h').length ≤ (yields h).length) ∧
    (pc' = .returned → (∀ e, pc ≠ .raised e) → (yields h).length ≤ (yields h').length) := by
  obtain ⟨t, ht⟩ := hq.startOk hs
  obtain ⟨t', ht'⟩ := scripted_start hr'
  have e : abs' = abs := by
    rw [ht] at ht'; injection ht' with _ e; injection e with e; exact e.symm
  subst e
  obtain ⟨n, s2, pc2, b1, c1⟩ := scripted_big hr
  obtain ⟨n', s2', pc2', b1', c1'⟩ := scripted_big hr'
  obtain ⟨r1, r2, r3⟩ := Big.compare hw (corr_at_start hq hs ho) b1 b1'
  have nf : ∀ {p p2 : PC α}, (p.busy = false ∧ p2 = p ∨ p.busy = true ∧ p2.failed = false ∧
      p2 ≠ .returned) → (∀ e, p ≠ .raised e) → p2.failed = false := by
    rintro p p2 (⟨_, e⟩ | ⟨_, e, _⟩) hp
    · subst e; cases p2 with
      | raised e => exact absurd rfl (hp e)
      | _ => rfl
    · exact e
  refine ⟨rfl, r1, ?_, ?_⟩
  · intro hp hp'
    subst hp
    rcases c1 with ⟨_, e⟩ | ⟨e, _⟩
    · exact r2 e (nf c1' hp')
    · cases e
  · intro hp' hp
    subst hp'
    rcases c1' with ⟨_, e⟩ | ⟨e, _⟩
    · exact r3 e (nf c1 hp)
    · cases e

/-- C31, progress: whatever a run has yielded, the scheduler with the other order of
iteration yields it too (and returns if the run has), unless it raises. -/
theorem C31_follow_partial (hq : Reordered s0 s0') (hs : s0.start a = (s1, .ok abs))
    (ho : OrderFree s1 a) (hw : ∀ ys ys', SameSets ys ys' → w ys' = w ys)
    (hr : Scripted w a s0 abs h s pc) (hp : ∀ e, pc ≠ .raised e) :
    (∃ h' s' pc', Scripted w a s0' abs h' s' pc' ∧ SameSets (yields h) (yields h') ∧
      (pc = .returned → pc' = .returned)) ∨
    ∃ h' s' e, Scripted w a s0' abs h' s' (.raised e) := by
  obtain ⟨t, ht⟩ := hq.startOk hs
  obtain ⟨n, s2, pc2, b1, c1⟩ := scripted_big hr
  obtain ⟨h', s', pc', k1, k2, k3⟩ := Big.go (w := w) ht n
  cases b1.pair hw (corr_at_start hq hs ho) k3 with
  | both _ _ hys haf =>
    refine .inl ⟨h', s', pc', k1, hys, ?_⟩
    intro e
    rcases c1 with ⟨_, e2⟩ | ⟨e2, _⟩
    · rw [haf.1, e2, e]
    · rw [e] at e2; cases e2
  | left hf _ _ =>
    rcases c1 with ⟨_, e2⟩ | ⟨_, e2, _⟩
    · subst e2
      cases pc2 with
      | raised e => exact absurd rfl (hp e)
      | _ => cases hf
    · rw [e2] at hf; cases hf
  | right hf _ _ =>
    cases pc' with
    | raised e => exact .inr ⟨h', s', e, k1⟩
    | _ => cases hf

/-! ## Schedulers without conditions -/

theorem default_rising {st : Store α κ} {n : α} {deps : List α} {c : Cond α κ W}
    (hd : IsDefault st n deps c) (P : α → Prop) (Q : α → Option α → Prop)
    (hq : ∀ d ∈ deps, Q d (some n)) : RisingCond P Q st.owner c := by
  obtain ⟨o, e, _, h1, h2⟩ := hd.ex
  subst e
  refine .smooth (.fixed ?_)
  match deps, h1, h2, hq with
  | [], _, _, _ => simp [Sys.defaultCond, FixedCond, FixedLeaf]
  | [d], h1, _, hq =>
    simp only [Sys.defaultCond, FixedCond, FixedLeaf]
    rw [h1 d rfl]; exact hq d (by simp)
  | d :: d' :: ds, _, h2, hq =>
    simp only [Sys.defaultCond, FixedCond]
    rw [defaultLeaves_eq]
    have key : ∀ (l : List α) (k : Nat), (∀ x, k ≤ x → x < k + l.length → st.owner x = some n) →
        (∀ d ∈ l, Q d (some n)) →
        FixedAll (κ := κ) (W := W) false P Q st.owner (defaultLeaves k l) := by
      intro l
      induction l with
      | nil => intro k _ _; simp [defaultLeaves, FixedAll]
      | cons x l ih =>
        intro k hk hl
        simp only [defaultLeaves, FixedAll, FixedCond, FixedLeaf]
        refine ⟨?_, ih (k + 1) (fun y h1 h2 => hk y (by omega) (by simp; omega)) fun d hd => hl d (by simp [hd])⟩
        rw [hk k (Nat.le_refl _) (by simp)]
        exact hl x (by simp)
    exact key _ _ (h2 (by simp)) hq

mutual
theorem fixed_owner {P : α → Prop} {own own' : OId → Option α} :
    ∀ {c : Cond α κ W}, FixedCond true P (fun _ _ => False) own c →
      FixedCond true P (fun _ _ => False) own' c
  | .leaf o k, h => by
    cases k <;> simpa [FixedCond, FixedLeaf] using h
  | .whileNot _ f, h => by simpa [FixedCond] using h
  | .all _ args, h => by
    simp only [FixedCond] at h ⊢; exact fixedAll_owner h
  | .any _ args, h => by
    simp only [FixedCond] at h ⊢; exact fixedAll_owner h
  | .not _ c, h => by
    simp only [FixedCond] at h ⊢; exact fixed_owner h
  | .nwhen _ c _, h => by
    simp only [FixedCond] at h ⊢; exact ⟨trivial, fixed_owner h.2⟩
theorem fixedAll_owner {P : α → Prop} {own own' : OId → Option α} :
    ∀ {cs : List (Cond α κ W)}, FixedAll true P (fun _ _ => False) own cs →
      FixedAll true P (fun _ _ => False) own' cs
  | [], _ => by simp [FixedAll]
  | c :: cs, h => by
    simp only [FixedAll] at h ⊢; exact ⟨fixed_owner h.1, fixedAll_owner h.2⟩
end

theorem SameSets_trans : ∀ {x y z : List (List α)}, SameSets x y → SameSets y z → SameSets x z
  | _, _, _, .nil, .nil => .nil
  | _, _, _, .cons h1 h2, .cons h3 h4 =>
    .cons (fun n => (h1 n).trans (h3 n)) (SameSets_trans h2 h4)

/-- C31 for a scheduler for an acyclic graph `g` without self-edges in which no node has a
condition; the consideration sets may be iterated in any orders. -/
theorem C31_default_partial (g : Graph α) (hg : Dict.WF g) (hc : ¬ HasCycle g)
    (hse : ∀ n, ¬ Edge g n n) (id : Option κ) (unit : Rat) (wo : World α κ W)
    (hq : Reordered (Sys.new g .standard id unit wo) s0)
    (hq' : Reordered (Sys.new g .standard id unit wo) s0')
    (he : FixedCond true (fun _ => True) (fun _ _ => False) (fun _ => none) a.esu)
    (hsq : FixedCond true (fun _ => True) (fun _ _ => False) (fun _ => none) a.seq)
    (hw : ∀ ys ys', SameSets ys ys' → w ys' = w ys)
    (hr : Scripted w a s0 abs h s pc) (hr' : Scripted w a s0' abs' h' s' pc') :
    abs' = abs ∧
    (∀ (k : Nat) (x y : List α), (yields h)[k]? = some x → (yields h')[k]? = some y →
      SameMembers x y) ∧
    (pc = .returned → (∀ e, pc' ≠ .raised e) → (yields h').length ≤ (yields h).length) := by
  obtain ⟨t, ht⟩ := scripted_start hr
  have hqq : Reordered s0 s0' := by
    obtain ⟨e1, q1⟩ := hq
    obtain ⟨e2, q2⟩ := hq'
    refine ⟨?_, SameSets_trans q1.symm q2⟩
    rw [e1]; rw [e2]
  have hof : OrderFree t a := by
    have st := Sys.start_ok ht
    obtain ⟨_, _, h3, h4⟩ := st.conds_spec
    have hqt : t.queue = s0.queue := st.queue
    obtain ⟨e1, q1⟩ := hq
    have n1 : s0.nodes = Dict.keys (baseGraph g) := by rw [e1]; rfl
    have n2 : s0.conds = [] := by rw [e1]; rfl
    have hnq : (Sys.new g .standard id unit wo).queue = queueOf (baseGraph g) := rfl
    have n3 : s0.graph = baseGraph g := by rw [e1]; rfl
    refine ⟨fixed_owner he, fixed_owner hsq, ?_⟩
    intro n c hc1
    by_cases hn : n ∈ s0.nodes
    · obtain ⟨deps, c', g1, g2, g3⟩ := h3 n hn (by rw [n2]; rfl)
      rw [hc1] at g2; injection g2 with g2; subst g2
      refine default_rising g3 _ _ ?_
      intro d hd
      refine ⟨rfl, ?_⟩
      have hedge : Edge g d n := by
        rw [n3] at g1
        exact (baseGraph_edge g hg d n).1 ((edge_iff_get? (baseGraph_wf g) d n).2 ⟨deps, g1, hd⟩)
      have hne : d ≠ n := fun e => hse n (e ▸ hedge)
      rw [hqt]
      refine q1.apart ?_
      intro l hl ⟨m1, m2⟩
      rw [hnq] at hl
      exact C02_no_edge_inside g hg hc l hl d n m1 m2 hne hedge
    · rw [h4 n hn, n2] at hc1; cases hc1
  obtain ⟨r1, r2, r3, _⟩ := C31_order_partial hqq ht hof hw hr hr'
  exact ⟨r1, r2, r3⟩

/-! ## Concrete runs -/

/-- A run with a consumer that behaves as `w` says, after `k` steps. -/
def scriptAfter (w : List (List α) → World α κ W) (a : RunArgs α κ W) (s0 : Sys α κ W) :
    Nat → History α κ W × Sys α κ W × PC α
  | 0 => ([], (s0.start a).1, .outer)
  | k + 1 =>
    let r := scriptAfter w a s0 k
    let s := resumed w (yields r.1) r.2.1 r.2.2
    let x := s.step a ((s0.start a).2.toOption.getD false) r.2.2
    (r.1 ++ x.2.2.toList.map fun e => ⟨s, e, x.1⟩, x.1, x.2.1)

theorem scriptAfter_scripted (hs : (s0.start a).2 = .ok abs) (k : Nat) :
    Scripted w a s0 abs (scriptAfter w a s0 k).1 (scriptAfter w a s0 k).2.1
      (scriptAfter w a s0 k).2.2 := by
  induction k with
  | zero => exact .start (Prod.ext rfl hs)
  | succ k ih =>
    have e : (s0.start a).2.toOption.getD false = abs := by rw [hs]; rfl
    unfold scriptAfter
    rw [e]
    exact .step ih rfl

/-- Three nodes without edges between them and a receiver.  Node 1 runs after two calls of
node 0, or when node 0 has run in the pass; the receiver 3 every second call of 2. -/
def orderDemo : Sys Nat Nat Unit :=
  (((Sys.new [(3, [0, 1, 2])] .standard none 1 demoWorld).alloc 4).addBasic 1
    (.any 0 [.leaf 1 (.afterNCalls 0 2 .environment_sequence), .leaf 2 (.allHaveRun [] .pass)])).addBasic 3
    (.leaf 3 (.everyNCalls 2 2))

/-- The same, but Python iterates over the sets differently. -/
def orderDemo' : Sys Nat Nat Unit := { orderDemo with queue := [[2, 1, 0], [3]] }

def constWorld : List (List Nat) → World Nat Nat Unit := fun _ => demoWorld

theorem orderDemo_reordered : Reordered orderDemo orderDemo' := by
  refine ⟨rfl, ?_⟩
  show SameSets [[0, 1, 2], [3]] [[2, 1, 0], [3]]
  refine .cons ?_ (.cons (fun _ => Iff.rfl) .nil)
  intro n; simp only [List.mem_cons, List.not_mem_nil, or_false]
  constructor <;> (rintro (h | h | h) <;> simp [h])

theorem orderDemo_free : OrderFree (orderDemo.start demoArgs).1 demoArgs := by
  refine ⟨?_, ?_, ?_⟩
  · simp [demoArgs, FixedCond, FixedLeaf]
  · simp [demoArgs, FixedCond, FixedLeaf]
  · intro n c hc
    have hcs : (orderDemo.start demoArgs).1.conds =
        [(1, .any 0 [.leaf 1 (.afterNCalls 0 2 .environment_sequence), .leaf 2 (.allHaveRun [] .pass)]),
         (3, .leaf 3 (.everyNCalls 2 2)), (0, .leaf 4 .always), (2, .leaf 5 .always)] := rfl
    have hqs : (orderDemo.start demoArgs).1.queue = [[0, 1, 2], [3]] := rfl
    rw [hcs] at hc
    rw [hqs]
    have hm := Dict.mem_of_get? hc
    simp only [List.mem_cons, Prod.mk.injEq, List.not_mem_nil, or_false] at hm
    rcases hm with ⟨rfl, rfl⟩ | ⟨rfl, rfl⟩ | ⟨rfl, rfl⟩ | ⟨rfl, rfl⟩
    · refine .smooth (.any ?_)
      intro c hc
      simp only [List.mem_cons, List.not_mem_nil, or_false] at hc
      rcases hc with rfl | rfl
      · exact .leaf trivial
      · exact .leaf rfl
    · refine .smooth (.fixed ?_)
      simp only [FixedCond, FixedLeaf]
      refine ⟨by decide +kernel, ?_⟩
      intro l hl
      simp only [List.mem_cons, List.not_mem_nil, or_false] at hl
      rcases hl with rfl | rfl <;> decide
    · exact .smooth (.fixed (by simp [FixedCond, FixedLeaf]))
    · exact .smooth (.fixed (by simp [FixedCond, FixedLeaf]))

example : Reordered orderDemo orderDemo' ∧ (orderDemo.start demoArgs).2 = .ok false ∧
    OrderFree (orderDemo.start demoArgs).1 demoArgs ∧
    (∀ ys ys', SameSets ys ys' → constWorld ys' = constWorld ys) ∧
    (∀ k, Scripted constWorld demoArgs orderDemo false (scriptAfter constWorld demoArgs orderDemo k).1
      (scriptAfter constWorld demoArgs orderDemo k).2.1
      (scriptAfter constWorld demoArgs orderDemo k).2.2) ∧
    yields (scriptAfter constWorld demoArgs orderDemo 60).1 = [[0, 2], [0, 1, 2], [3]] ∧
    yields (scriptAfter constWorld demoArgs orderDemo' 60).1 = [[2, 0], [2, 0, 1], [3]] ∧
    (scriptAfter constWorld demoArgs orderDemo 60).2.2 = .returned :=
  ⟨orderDemo_reordered, by decide +kernel, orderDemo_free, fun _ _ _ => rfl,
    fun k => scriptAfter_scripted (by decide +kernel) k, by decide +kernel, by decide +kernel,
    by decide +kernel⟩

/-- A diamond, for `C31_default_partial`: iterated as built and backwards. -/
def orderPlain : Sys Nat Nat Unit :=
  Sys.new [(1, [0]), (2, [0]), (3, [1, 2])] .standard none 1 demoWorld

example : Reordered orderPlain orderPlain ∧
    Reordered orderPlain { orderPlain with queue := [[0], [2, 1], [3]] } ∧
    FixedCond true (fun _ => True) (fun _ _ => False) (fun _ => none) demoArgs.esu ∧
    FixedCond true (fun _ => True) (fun _ _ => False) (fun _ => none) demoArgs.seq ∧
    yields (scriptAfter constWorld demoArgs orderPlain 60).1 = [[0], [1, 2], [3]] := by
  refine ⟨⟨rfl, .refl _⟩, ⟨rfl, ?_⟩, by simp [demoArgs, FixedCond, FixedLeaf],
    by simp [demoArgs, FixedCond, FixedLeaf], by decide +kernel⟩
  show SameSets [[0], [1, 2], [3]] [[0], [2, 1], [3]]
  refine .cons (fun _ => Iff.rfl) (.cons ?_ (.cons (fun _ => Iff.rfl) .nil))
  intro n; simp only [List.mem_cons, List.not_mem_nil, or_false]; exact or_comm

/-! ## The claim as listed -/

/-- Two nodes without edges; node 1 has `BeforeNCalls(0, 1)`. -/
def orderBad : Sys Nat Nat Unit :=
  ((Sys.new [(0, []), (1, [])] .standard none 1 demoWorld).alloc 1).addBasic 1
    (.leaf 0 (.beforeNCalls 0 1 .environment_state_update))

/-- C31 is false as listed: with `BeforeNCalls` between nodes of one set, the first set
contains node 1 or not, depending on which node Python considers first. -/
theorem C31_order_matters : ∃ (s0 s0' : Sys Nat Nat Unit) (a : RunArgs Nat Nat Unit)
    (h h' : History Nat Nat Unit) (s s' : Sys Nat Nat Unit) (pc pc' : PC Nat) (x y : List Nat),
    Reordered s0 s0' ∧ Scripted constWorld a s0 false h s pc ∧
    Scripted constWorld a s0' false h' s' pc' ∧
    (yields h)[0]? = some x ∧ (yields h')[0]? = some y ∧ 1 ∉ x ∧ 1 ∈ y := by
  refine ⟨orderBad, { orderBad with queue := [[1, 0]] }, demoArgs, _, _, _, _, _, _, [0], [1, 0],
    ⟨rfl, ?_⟩, scriptAfter_scripted (by decide +kernel) 12,
    scriptAfter_scripted (by decide +kernel) 12, by decide +kernel, by decide +kernel,
    by decide, by decide⟩
  show SameSets [[0, 1]] [[1, 0]]
  refine .cons ?_ .nil
  intro n; simp only [List.mem_cons, List.not_mem_nil, or_false]; exact or_comm

/-- Two nodes without edges; node 1 has `Any(AfterNCalls(0, 1), EveryNPasses(0))`, which
divides by zero if it looks at its second component. -/
def orderRaise : Sys Nat Nat Unit :=
  ((Sys.new [(0, []), (1, [])] .standard none 1 demoWorld).alloc 3).addBasic 1
    (.any 0 [.leaf 1 (.afterNCalls 0 1 .environment_state_update),
      .leaf 2 (.everyNPasses 0 .environment_state_update)])

theorem orderRaise_free : OrderFree (orderRaise.start demoArgs).1 demoArgs := by
  have e1 : (orderRaise.start demoArgs).1.conds =
      [(1, .any 0 [.leaf 1 (.afterNCalls 0 1 .environment_state_update),
        .leaf 2 (.everyNPasses 0 .environment_state_update)]), (0, .leaf 3 .always)] := by rfl
  refine ⟨by simp [demoArgs, FixedCond, FixedLeaf], by simp [demoArgs, FixedCond, FixedLeaf], ?_⟩
  intro n c hc
  rw [e1] at hc
  simp only [Dict.get?] at hc
  split at hc
  · cases hc
    refine .smooth (.any ?_)
    intro c hc
    simp only [List.mem_cons, List.not_mem_nil, or_false] at hc
    rcases hc with rfl | rfl
    · exact .leaf trivial
    · exact .fixed trivial
  · split at hc
    · cases hc; exact .smooth (.fixed trivial)
    · cases hc

/-- Why the theorems above except runs that raise: whether an exception is raised can
depend on the order even for `OrderFree` conditions. -/
theorem C31_raises : ∃ (s0 s0' : Sys Nat Nat Unit) (a : RunArgs Nat Nat Unit)
    (h h' : History Nat Nat Unit) (s s' : Sys Nat Nat Unit),
    Reordered s0 s0' ∧ OrderFree (s0.start a).1 a ∧
    Scripted constWorld a s0 false h s .returned ∧
    Scripted constWorld a s0' false h' s' (.raised .zeroDivisionError) := by
  have e1 : (scriptAfter constWorld demoArgs orderRaise 40).2.2 = .returned := by decide +kernel
  have e2 : (scriptAfter constWorld demoArgs { orderRaise with queue := [[1, 0]] } 40).2.2 =
      .raised .zeroDivisionError := by decide +kernel
  have k1 := scriptAfter_scripted (w := constWorld) (a := demoArgs) (s0 := orderRaise)
    (abs := false) (by decide +kernel) 40
  have k2 := scriptAfter_scripted (w := constWorld) (a := demoArgs)
    (s0 := { orderRaise with queue := [[1, 0]] }) (abs := false) (by decide +kernel) 40
  rw [e1] at k1
  rw [e2] at k2
  refine ⟨orderRaise, { orderRaise with queue := [[1, 0]] }, demoArgs, _, _, _, _,
    ⟨rfl, ?_⟩, orderRaise_free, k1, k2⟩
  show SameSets [[0, 1]] [[1, 0]]
  refine .cons ?_ .nil
  intro n; simp only [List.mem_cons, List.not_mem_nil, or_false]; exact or_comm

end GS.Props

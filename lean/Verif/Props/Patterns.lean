import Verif.PatternLemmas
/-!
# C113: any pattern of execution can be scheduled

Specification: `Verif/Spec/Patterns.lean`.
-/

set_option linter.unusedSectionVars false

namespace GS.Props
open Spec TimeScale
variable {α κ W : Type _} [DecidableEq α] [DecidableEq κ]
variable {w : List (List α) → World α κ W} {a : RunArgs α κ W} {s0 s s1 t : Sys α κ W}
variable {h : History α κ W} {pc : PC α} {runs : List (List (List (List α)))} {abs : Bool}
variable {E : Sys α κ W → Sys α κ W → Prop} {T : List (List (List α))}

/-- C113: if every node's condition is `Any(AtPass(k1), AtPass(k2), ...)` for the passes of the
pattern `T` in which it is to execute, then a run of as many passes as `T` has executes exactly
`T`: pass by pass the same sets, whatever the nodes do in the meantime and whatever runs were
completed before. -/
theorem C113_pattern (hq : s0.queue.flatten.Nodup) (hqn : ∀ n ∈ s0.queue.flatten, n ∈ s0.nodes)
    (hT : Timetable T s0) (hp : ∀ p ∈ T, PossiblePass s0.queue p) (hu : Unused s0 a.id)
    (hc : CompleteRuns a.id s0 runs s) (ha : AfterPasses T.length a)
    (hr : Scripted w a s false h t .returned) : SamePasses (passYields h) T := by
  have hd := hT.described hqn
  have hl := hc.like hd
  have htell := C81_tells s w a (fun i j n hi hj => places_of_nodup hq i j n
    (by rw [← hl.queue]; exact hi) (by rw [← hl.queue]; exact hj))
  have key := (C81_returned hd hu hc ha.described htell hr).2 (T.length + passes h) (by omega)
  obtain ⟨B, k1, k2⟩ := reference_timetable (T := T) hq
    (R := rule s0 (aroundOf s w a)) (S := stop a (aroundOf s w a))
    (fun n hn p => hT.rule _ (hqn n hn) p) (fun p => ha.stop _ p) hp runs T [] [] rfl .nil
  have more : ∀ d, reference false (rule s0 (aroundOf s w a)) (stop a (aroundOf s w a)) s0.queue
      (T.length + d) ⟨runs, [], [], []⟩ = ⟨runs, B, [], []⟩ := by
    intro d
    induction d with
    | zero => exact k1
    | succ d ih =>
      rw [← Nat.add_assoc, reference_succ, ih, if_pos]
      rw [ha.stop]
      simp [All2.length k2]
  rw [more] at key
  have : B = passYields h := by injection key
  rw [← this]
  exact k2

/-! ## Such a run returns -/

theorem validateConditions_full : ∀ (ns : List α) (s : Sys α κ W),
    (∀ n ∈ ns, (Dict.get? s.conds n).isSome) → Sys.validateConditions ns s = (s, none)
  | [], _, _ => rfl
  | n :: ns, s, h => by
    simp only [Sys.validateConditions]
    obtain ⟨c, hc⟩ := Option.isSome_iff_exists.1 (h n (by simp))
    rw [hc]
    exact validateConditions_full ns s fun m hm => h m (by simp [hm])

/-- No condition uses absolute time, and all nodes have one. -/
theorem start_relative (hs : s0.start a = (s1, .ok abs))
    (hn : ∀ n ∈ s0.nodes, (Dict.get? s0.conds n).isSome)
    (hr : ∀ c ∈ s0.conds.map Prod.snd ++ a.seq :: a.esu :: a.others, c.isAbsolute = false) :
    abs = false := by
  rcases Sys.start_abs hs with ⟨h, _⟩ | ⟨_, h, _⟩
  · exact h
  · exfalso
    apply h
    obtain ⟨s2, h1, h2, _⟩ := (Sys.start_ok hs).conds
    have h3 : s2 = s0 := by
      obtain ⟨q, hq⟩ := (Sys.start_ok hs).topo
      unfold Sys.validateRunState at h1
      rw [hq] at h1
      simp only [validateConditions_full _ _ hn, Prod.mk.injEq, and_true] at h1
      exact h1.symm
    unfold Sys.absoluteConds
    rw [h2, h3]
    refine List.filter_eq_nil_iff.2 fun c hc => ?_
    rw [hr c hc]; simp

/-- A run that is left alone is a run with a consumer who changes nothing. -/
theorem alone_scripted (hr : Reach (fun _ _ => False) a s0 abs h s pc) :
    Scripted (fun _ => s0.world) a s0 abs h s pc ∧ s.world = s0.world := by
  induction hr with
  | start hs => exact ⟨.start hs, (Sys.start_ok hs).world⟩
  | env _ _ h => exact h.elim
  | @step abs h s s' pc pc' ev hr hst ih =>
    obtain ⟨i1, i2⟩ := ih
    have e : resumed (fun _ => s0.world) (yields h) s pc = s := by
      unfold resumed
      split
      · rw [← i2]
      · rfl
    refine ⟨?_, (Sys.step_stepR hst).frame.world.trans i2⟩
    have := Scripted.step (s' := s') (pc' := pc') (ev := ev) i1 (by rw [e]; exact hst)
    rw [e] at this
    exact this

/-- C113: and there is such a run: left alone, it begins, raises nothing, returns, and has
executed exactly the pattern. -/
theorem C113_run (hH : Healthy s0) (hne : s0.queue ≠ []) (hk : CanBegin a s0)
    (hq : s0.queue.flatten.Nodup) (hT : Timetable T s0) (hp : ∀ p ∈ T, PossiblePass s0.queue p)
    (hu : Unused s0 a.id) (ha : AfterPasses T.length a)
    (hr : ∀ c ∈ s0.conds.map Prod.snd ++ a.others, c.isAbsolute = false)
    (ho : ∀ n c, Dict.get? s0.conds n = some c → n ∈ s0.nodes) :
    ∃ k h s, exec s0 a k = some (false, h, s, .returned) ∧ SamePasses (passYields h) T := by
  obtain ⟨o, o', e1, e2⟩ := ha.shape
  obtain ⟨s1, ab, hs⟩ := C90_begins hH hne hk
  have hab : ab = false := by
    refine start_relative hs (fun n hn => ?_) (fun c hc => ?_)
    · obtain ⟨c, hc, _⟩ := hT n hn; rw [hc]; rfl
    · rw [List.mem_append, List.mem_cons, List.mem_cons] at hc
      rcases hc with hc | rfl | rfl | hc
      · exact hr c (by simp [hc])
      · rw [e2]; rfl
      · rw [e1]; rfl
      · exact hr c (by simp [hc])
  subst hab
  obtain ⟨k, h, s, pc, h1, h2⟩ := C78_ends (N := T.length) ⟨o, o', .inl ⟨e1, e2⟩⟩ (by decide) hu.clock hs
  have hS : ∀ e, pc ≠ .raised e := by
    refine C90_never_raises (P := fun w => w = s0.world) hH rfl (fun n c hc => ?_)
      (by rw [e1]; trivial) (by rw [e2]; trivial) (by simp) (exec_reach h1)
    obtain ⟨c', hc', hs'⟩ := hT n (ho n c hc)
    rw [hc] at hc'; cases hc'
    exact hs'.sane _ _
  rcases h2 with rfl | ⟨e, rfl⟩
  · refine ⟨k, h, s, h1, ?_⟩
    exact C113_pattern hq (fun n hn => (hH.placed n).1 hn) hT hp hu .nil ha
      (alone_scripted (exec_reach h1)).1
  · exact absurd rfl (hS e)

/-! ## New schedulers -/

/-- Conditions given to a scheduler, one after the other (`add_condition`). -/
def withConds (s : Sys α κ W) (l : List (α × Cond α κ W)) : Sys α κ W :=
  l.foldl (fun s p => s.addBasic p.1 p.2) s

theorem withConds_like : ∀ (l : List (α × Cond α κ W)) (s : Sys α κ W),
    withConds s l = { s with
      conds := (withConds s l).conds, store := (withConds s l).store }
  | [], _ => rfl
  | p :: l, s => by
    show withConds (s.addBasic p.1 p.2) l = _
    rw [withConds_like l]
    rfl

theorem withConds_get? : ∀ (l : List (α × Cond α κ W)) (s : Sys α κ W) (n : α) (c : Cond α κ W),
    Dict.get? (withConds s l).conds n = some c → (n, c) ∈ l ∨ Dict.get? s.conds n = some c
  | [], _, _, _, h => .inr h
  | p :: l, s, n, c, h => by
    rcases withConds_get? l (s.addBasic p.1 p.2) n c h with h | h
    · exact .inl (by simp [h])
    · simp only [Sys.addBasic, Dict.get?_set] at h
      split at h
      · rename_i e
        cases h
        left; rw [← e]; simp
      · exact .inr h

theorem withConds_some : ∀ (l : List (α × Cond α κ W)) (s : Sys α κ W) (n : α),
    (n ∈ l.map Prod.fst ∨ (Dict.get? s.conds n).isSome) → (Dict.get? (withConds s l).conds n).isSome
  | [], s, n, h => by
    show (Dict.get? s.conds n).isSome
    simpa using h
  | p :: l, s, n, h => by
    refine withConds_some l (s.addBasic p.1 p.2) n ?_
    simp only [Sys.addBasic, Dict.get?_set]
    simp only [List.map_cons, List.mem_cons] at h
    rcases h with (rfl | h) | h
    · right; simp
    · exact .inl h
    · right; split
      · rfl
      · exact h

theorem withConds_wf : ∀ (l : List (α × Cond α κ W)) (s : Sys α κ W), Dict.WF s.conds →
    Dict.WF (withConds s l).conds
  | [], _, h => h
  | p :: l, s, h => withConds_wf l _ (h.set _ _)

/-- C113, for every graph: take an acyclic graph and a pattern, each pass of which its
consideration sets can yield. Give every node of a new scheduler the condition
`Any(AtPass(k1), AtPass(k2), ...)` for the passes in which it is to execute. A run of as many
passes as the pattern has returns, having executed exactly the pattern. -/
theorem C113_graph (g : Graph α) (hg : Dict.WF g) (hc : ¬ HasCycle g) (hnn : ∃ n, IsNode g n)
    (unit : Rat) (wd : World α κ W) (ha : AfterPasses T.length a) (hao : a.others = [])
    (hp : ∀ p ∈ T, PossiblePass (queueOf (baseGraph g)) p) (l : List (α × Cond α κ W))
    (hl : ∀ n, n ∈ l.map Prod.fst ↔ IsNode g n)
    (hlc : ∀ p ∈ l, IsAtPasses (passesOf T p.1) p.2) :
    ∃ k h s, exec (withConds (Sys.new g .standard a.id unit wd) l) a k =
        some (false, h, s, .returned) ∧ SamePasses (passYields h) T := by
  have hH0 := C90_new g hg hc .standard a.id unit wd
  have hU0 := C81_new g .standard a.id unit wd
  have hs := withConds_like l (Sys.new g .standard a.id unit wd)
  have hget := withConds_get? l (Sys.new g .standard a.id unit wd)
  have hsome := withConds_some l (Sys.new g .standard a.id unit wd)
  have hwf := withConds_wf l (Sys.new g .standard a.id unit wd) (by simp [Sys.new, Dict.WF])
  generalize withConds (Sys.new g .standard a.id unit wd) l = s0 at hs hget hsome hwf
  generalize s0.conds = cs at hs hget hsome hwf
  generalize s0.store = st at hs
  subst hs
  have hkey : ∀ m, m ∈ (Sys.new g .standard a.id unit wd).nodes ↔ IsNode g m := baseGraph_keys g hg
  have hget' : ∀ n c, Dict.get? cs n = some c → (n, c) ∈ l := fun n c h =>
    (hget n c h).elim id fun h => by cases h
  obtain ⟨_, p2, p3⟩ := C01_partition g hg hc
  refine C113_run (T := T) ?_ ?_ ?_ p2 ?_ hp ?_ ha ?_ ?_
  · exact ⟨hH0.placed, hH0.known, hH0.senders, hH0.acyclic, hH0.synced, hH0.clock⟩
  · obtain ⟨n, hn⟩ := hnn
    intro (e : queueOf (baseGraph g) = [])
    have := (p3 n).2 hn
    rw [e] at this
    cases this
  · refine .inl ⟨?_, ?_, ?_⟩ <;> simp [Sys.new, Dict.get?]
  · intro n hn
    obtain ⟨c, hc⟩ := Option.isSome_iff_exists.1 (hsome n (.inl ((hl n).2 ((hkey n).1 hn))))
    exact ⟨c, hc, hlc _ (hget' n c hc)⟩
  · refine ⟨hU0.calls, hU0.sets, hU0.clock, fun n o c k h => ?_⟩
    obtain ⟨_, _, e, _⟩ := (hlc _ (hget' n _ h)).shape
    cases e
  · intro c hcm
    rw [hao, List.append_nil] at hcm
    obtain ⟨p, h1, rfl⟩ := List.mem_map.1 hcm
    have := Dict.get?_of_mem hwf (k := p.1) (v := p.2) h1
    exact (hlc _ (hget' p.1 p.2 this)).relative
  · intro n c h
    exact (hkey n).2 ((hl n).1 (List.mem_map.2 ⟨(n, c), hget' n c h, rfl⟩))

/-! ## Nothing else can be scheduled -/

theorem Possible.layer {q p : List (List α)} (hp : Possible q p) {l : List α} {x : List (List α)}
    (hx : Possible [l] x) : Possible (q ++ [l]) (p ++ x) := by
  induction hp with
  | nil => exact hx
  | over _ ih => exact .over ih
  | some h1 h2 _ ih => exact .some h1 h2 ih

theorem Possible.rest {q p : List (List α)} (hp : Possible q p) (r : List (List α)) :
    Possible (q ++ r) p := by
  induction hp with
  | nil => 
    induction r with
    | nil => exact .nil
    | cons l r ih => exact .over ih
  | over _ ih => exact .over ih
  | some h1 h2 _ ih => exact .some h1 h2 ih

/-- The passes so far, by program counter. -/
def PatternAt (q : List (List α)) (py : List (List (List α))) : PC α → Prop
  | .outer | .returned | .yieldedEmpty => ∀ p ∈ py, PossiblePass q p
  | .inner i ch => ∃ ps p, py = ps ++ [p] ∧ (∀ p ∈ ps, PossiblePass q p) ∧ Possible (q.take i) p ∧
      (p = [] ↔ ch = false)
  | .choosing c => ∃ ps p, py = ps ++ [p] ∧ (∀ p ∈ ps, PossiblePass q p) ∧ Possible (q.take c.idx) p ∧
      (p = [] ↔ c.changed = false)
  | .yielded i ch => ∃ ps p, py = ps ++ [p] ∧ (∀ p ∈ ps, PossiblePass q p) ∧
      Possible (q.take (i + 1)) p ∧ (p = [] ↔ ch = false)
  | .raised _ => True

theorem Reach.pattern (hr : Reach E a s0 false h s pc) (hE : ∀ s s', E s s' → s'.queue = s.queue) :
    PatternAt s0.queue (passYields h) pc := by
  refine hr.ind (P := fun h _ pc => PatternAt s0.queue (passYields h) pc) ?_ ?_ ?_
  · intro s _ p hp; cases hp
  · intro h s s' pc pc' ev hr ih hst
    have hch := hr.choice
    have hqe := hr.keepQueue hE
    cases hst with
    | yieldAbs _ _ ha => cases ha
    | pass => rw [ext_some, passYields_passStart]; exact ⟨_, [], rfl, ih, .nil, by simp⟩
    | stopSkip => rw [ext_some, passYields_other _ _ _ rfl (by simp)]; exact ih
    | stopIncr => rw [ext_some, passYields_other _ _ _ rfl (by simp)]; exact ih
    | @passEnd idx ch _ _ hl hc =>
      rw [ext_none]
      obtain ⟨ps, p, h1, h2, h3, h4⟩ := ih
      rw [h1]
      intro p' hp'
      rcases List.mem_append.1 hp' with hp' | hp'
      · exact h2 p' hp'
      · rw [List.mem_singleton] at hp'
        subst hp'
        refine .inl ⟨fun e => ?_, ?_⟩
        · rw [h4.1 e] at hc; cases hc
        · have := Possible.rest h3 (s0.queue.drop idx)
          rw [List.take_append_drop] at this
          exact this
    | emptyYield =>
      rw [ext_some, passYields_yield _ _ _ (y := []) rfl]
      obtain ⟨ps, p, h1, h2, _, h4⟩ := ih
      rw [h4.2 rfl] at h1
      rw [h1, addToLast_snoc]
      intro p' hp'
      rcases List.mem_append.1 hp' with hp' | hp'
      · exact h2 p' hp'
      · rw [List.mem_singleton] at hp'; exact .inr hp'
    | consider => rw [ext_some, passYields_other _ _ _ rfl (by simp)]; exact ih
    | again => rw [ext_none]; exact ih
    | skip => rw [ext_none]; exact ih
    | reject => rw [ext_none]; exact ih
    | add => rw [ext_some, passYields_other _ _ _ rfl (by simp)]; exact ih
    | @yield c l _ _ _ hne =>
      rw [ext_some, passYields_yield _ _ _ (y := c.exec) rfl]
      obtain ⟨ps, p, h1, h2, h3, _⟩ := ih
      have ci := hch c rfl
      have hq := ci.queue
      rw [hqe] at hq
      obtain ⟨hlt, hq⟩ := List.getElem?_eq_some_iff.1 hq
      refine ⟨ps, p ++ [c.exec], by rw [h1, addToLast_snoc], h2, ?_, by simp⟩
      rw [List.take_add_one, List.getElem?_eq_getElem hlt, hq]
      exact Possible.layer h3 (.some hne ci.sub .nil)
    | @silent c =>
      rw [ext_some, passYields_other _ _ _ rfl (by simp)]
      obtain ⟨ps, p, h1, h2, h3, h4⟩ := ih
      have hq := (hch c rfl).queue
      rw [hqe] at hq
      obtain ⟨hlt, hq⟩ := List.getElem?_eq_some_iff.1 hq
      refine ⟨ps, p, h1, h2, ?_, h4⟩
      rw [List.take_add_one, List.getElem?_eq_getElem hlt]
      exact Possible.rest h3 _
    | resume => rw [ext_none]; exact ih
    | resumeEmpty => rw [ext_none]; exact ih
    | returned => rw [ext_none]; exact ih
    | _ => trivial
  · intro h s s' pc _ ih _ _; exact ih

/-- C113, conversely: whatever the conditions, a run without absolute time that has returned
has executed a pattern whose passes the consideration sets can yield. -/
theorem C113_only (hE : ∀ s s', E s s' → s'.queue = s.queue)
    (hr : Reach E a s0 false h s .returned) : ∀ p ∈ passYields h, PossiblePass s0.queue p :=
  Reach.pattern hr hE

/-! ## Concrete cases -/

/-- `AtPass(k)` for each `k`: new objects, from `o` on. -/
def eachAt (o : Nat) : List Nat → List (Cond α κ W)
  | [] => []
  | k :: ks => .leaf o (.atPass (k : Int) environment_state_update) :: eachAt (o + 1) ks

/-- `Any(AtPass(k1), AtPass(k2), ...)`, made of new objects from `o` on. -/
def atPasses (o : Nat) (ks : List Nat) : Cond α κ W := .any o (eachAt (o + 1) ks)

theorem atPasses_is (o : Nat) (ks : List Nat) : IsAtPasses ks (atPasses o ks : Cond α κ W) := by
  have key : ∀ (ks : List Nat) (o : Nat), bares (eachAt o ks : List (Cond α κ W)) =
      ks.map fun (k : Nat) => .leaf 0 (.atPass (k : Int) environment_state_update) := by
    intro ks
    induction ks with
    | nil => intro o; rfl
    | cons k ks ih => intro o; simp only [eachAt, bares, bare, List.map_cons, ih]
  unfold IsAtPasses atPasses
  simp only [bare, key]

/-- The edges 0 → 1, 0 → 2, 1 → 3, 2 → 3. -/
def rhomb : Graph Nat := [(0, []), (1, [0]), (2, [0]), (3, [1, 2])]

/-- In the first pass 0 and then 1 and 2 together; nothing in the second pass; 2 and then 3; 3 alone;
0, 1 and 3. -/
def rhombPattern : List (List (List Nat)) :=
  [[[0], [2, 1]], [[]], [[2], [3]], [[3]], [[0], [1], [3]]]

def rhombArgs : RunArgs Nat Nat Unit :=
  { id := none, esu := .leaf 90 (.afterNPasses 5 environment_state_update), seq := .leaf 91 .never }

def rhombConds : List (Nat × Cond Nat Nat Unit) :=
  [0, 1, 2, 3].map fun n => (n, atPasses (10 * n) (passesOf rhombPattern n))

theorem rhomb_possible : ∀ p ∈ rhombPattern, PossiblePass [[0], [1, 2], [3]] p := by
  intro p hp
  simp only [rhombPattern, List.mem_cons, List.not_mem_nil, or_false] at hp
  rcases hp with rfl | rfl | rfl | rfl | rfl
  · exact .inl ⟨by decide, .some (by decide) (by decide) (.some (by decide) (by decide) (.over .nil))⟩
  · exact .inr rfl
  · exact .inl ⟨by decide, .over (.some (by decide) (by decide) (.some (by decide) (by decide) .nil))⟩
  · exact .inl ⟨by decide, .over (.over (.some (by decide) (by decide) .nil))⟩
  · exact .inl ⟨by decide, .some (by decide) (by decide)
      (.some (by decide) (by decide) (.some (by decide) (by decide) .nil))⟩

/-- The conditions, as the user writes them. -/
example : rhombConds.map (fun p => (p.1, (passesOf rhombPattern p.1))) =
    [(0, [0, 4]), (1, [0, 4]), (2, [0, 2]), (3, [2, 3, 4])] := by decide

/-- `C113_graph`, applied. -/
theorem rhomb_runs : ∃ k h s, exec (withConds (Sys.new rhomb .standard none 1 demoWorld) rhombConds)
    rhombArgs k = some (false, h, s, .returned) ∧ SamePasses (passYields h) rhombPattern := by
  refine C113_graph (a := rhombArgs) rhomb (by decide) ?_ ⟨0, .inl ⟨(0, []), by decide, rfl⟩⟩ 1 demoWorld ⟨rfl, rfl⟩ rfl
    (by rw [show queueOf (baseGraph rhomb) = [[0], [1, 2], [3]] by decide +kernel]; exact rhomb_possible)
    rhombConds ?_ ?_
  · rcases toposort_spec rhomb (by decide) with ⟨_, _, _, _, _, h⟩ | ⟨h, _⟩
    · exact h
    · exact absurd h (by decide)
  · intro n
    have e : rhombConds.map Prod.fst = [0, 1, 2, 3] := by decide
    rw [e, ← baseGraph_keys rhomb (by decide), show Dict.keys (baseGraph rhomb) = [0, 1, 2, 3] by decide]
  · intro p hp
    obtain ⟨n, _, rfl⟩ := List.mem_map.1 hp
    exact atPasses_is _ _

/-- What it yields: the sets of the pattern. -/
example : (exec (withConds (Sys.new rhomb .standard none 1 demoWorld) rhombConds) rhombArgs 200).map
    (fun r => (passYields r.2.1, r.2.2.2)) =
    some ([[[0], [1, 2]], [[]], [[2], [3]], [[3]], [[0], [1], [3]]], .returned) := by decide +kernel

/-- `C113_only`, applied: the passes of that run are possible ones. -/
example {k : Nat} {h : History Nat Nat Unit} {s : Sys Nat Nat Unit}
    (hx : exec (withConds (Sys.new rhomb .standard none 1 demoWorld) rhombConds) rhombArgs k =
      some (false, h, s, .returned)) : ∀ p ∈ passYields h, PossiblePass [[0], [1, 2], [3]] p :=
  C113_only (E := fun _ _ => False) (fun _ _ h => h.elim) (exec_reach hx)

/-- Not every list of sets is possible: 3 cannot execute before 2 in a pass. -/
example : ¬ PossiblePass [[0], [1, 2], [3]] [[3], [2]] := by
  intro h
  rcases h with ⟨_, h⟩ | h
  · cases h with
    | over h => cases h with
      | over h => cases h with
        | over h => cases h
        | some _ _ h => cases h
      | some _ h => exact absurd (h 3 (by simp)) (by decide)
    | some _ h => exact absurd (h 3 (by simp)) (by decide)
  · cases h

end GS.Props

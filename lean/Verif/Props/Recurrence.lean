import Verif.Recurrence
import Verif.Props.RateChain
/-!
# C131: schedules pass by pass
-/

set_option linter.unusedSectionVars false

namespace GS.Props
open Spec
variable {α κ W : Type _} [DecidableEq α] [DecidableEq κ]
variable {s0 s t : Sys α κ W} {w : List (List α) → World α κ W} {a : RunArgs α κ W}
variable {h : History α κ W} {runs : List (List (List (List α)))} {abs : Bool} {n : α}

/-- **C131.** In a run that ends after `N` passes there are `N` passes. A node whose condition looks only
at the numbers of passes and runs and at the calls of nodes in other sets executes in a pass if and only
if its condition says so of the passes before and of what executes before it in this pass. -/
theorem C131_recurrence (hd : DescribedNodes s0) (hu : Unused s0 a.id) (hr' : CompleteRuns a.id s0 runs s)
    {N : Nat} (hE : AfterPasses N a) (hq : s0.queue.flatten.Nodup)
    (hr : Scripted w a s abs h t .returned) :
    (passYields h).length = N ∧ ∀ B P C, passYields h = B ++ P :: C →
      ∀ n ∈ s0.queue.flatten, LooksElsewhere s0 n → (n ∈ P.flatten ↔ executesIn runs B P s0 n) := by
  have hl := hr'.like hd
  have htell := C81_tells s w a (fun i j n hi hj => places_of_nodup hq i j n
    (by rw [← hl.queue]; exact hi) (by rw [← hl.queue]; exact hj))
  obtain ⟨hlen, key⟩ := passes_of_returned hd hu hr' hE htell hr
  obtain ⟨_, _, _, _, k⟩ := reference_recurrence (s := s0) (e := aroundOf s w a)
    (T := stop a (aroundOf s w a)) (abs := abs) runs hq (passes h)
  rw [key] at k
  refine ⟨hlen, fun B P C hB n hn hln => ?_⟩
  obtain ⟨k1, k2⟩ := k B P C hB n hn hln
  refine ⟨k1, k2 fun p e => ?_⟩
  rw [hE.stop, e]
  have : B.length < N := by rw [← hlen, hB]; simp
  simpa using this

/-- **C131.** Whatever ends the run: whenever a pass is over, such a node has executed only in passes of
which its condition says so. -/
theorem C131_only (hd : DescribedNodes s0) (hu : Unused s0 a.id) (hr' : CompleteRuns a.id s0 runs s)
    (hE : DescribedEnd a) (hq : s0.queue.flatten.Nodup) (hr : Scripted w a s abs h t .outer) :
    ∀ B P C, passYields h = B ++ P :: C → ∀ n ∈ s0.queue.flatten, LooksElsewhere s0 n → n ∈ P.flatten →
      executesIn runs B P s0 n := by
  have hl := hr'.like hd
  have htell := C81_tells s w a (fun i j n hi hj => places_of_nodup hq i j n
    (by rw [← hl.queue]; exact hi) (by rw [← hl.queue]; exact hj))
  have key := C81_passes hd hu hr' hE htell hr
  obtain ⟨_, _, _, _, k⟩ := reference_recurrence (s := s0) (e := aroundOf s w a)
    (T := stop a (aroundOf s w a)) (abs := abs) runs hq (passes h)
  rw [key] at k
  exact fun B P C hB n hn hln => (k B P C hB n hn hln).1

/-- **C131.** In an acyclic graph a node without condition is such a node. -/
theorem C131_default (g : Graph α) (hg : Dict.WF g) (hcyc : ¬ HasCycle g)
    (hsg : s0.graph = baseGraph g) (hsq : s0.queue = queueOf (baseGraph g)) (hd : DescribedNodes s0)
    (hn : IsNode g n) (hc : Dict.get? s0.conds n = none) : LooksElsewhere s0 n := by
  obtain ⟨_, _, p3⟩ := C01_partition g hg hcyc
  rw [← hsq] at p3
  have place : ∀ m, IsNode g m → ∃ i, At s0.queue i m := by
    intro m hm
    obtain ⟨l, hl, hml⟩ := List.mem_flatten.1 ((p3 m).2 hm)
    obtain ⟨i, hi⟩ := List.getElem?_of_mem hl
    exact ⟨i, l, hi, hml⟩
  refine .inr (.inr ⟨hc, fun ds hds d hdd => ?_⟩)
  have hne : d ≠ n := by
    rcases (hd n ((p3 n).2 hn)).2 with ⟨c, k, _⟩ | ⟨_, _, _, k, _⟩ | ⟨_, ds', k, k'⟩
    · rw [hc] at k; cases k
    · rw [hc] at k; cases k
    · rw [hds] at k
      cases k
      exact (k' d hdd).2
  have he : Edge g d n := (baseGraph_edge g hg d n).1
    ((edge_iff_get? (baseGraph_wf g) d n).2 ⟨ds, by rw [← hsg]; exact hds, hdd⟩)
  obtain ⟨i, hi⟩ := place d (by
    obtain ⟨x, hx, _, hx2⟩ := he
    exact .inr ⟨x, hx, hx2⟩)
  obtain ⟨j, hj⟩ := place n hn
  exact ⟨i, j, Nat.ne_of_lt (C02_senders_first g hg hcyc d n he hne i j (hsq ▸ hi) (hsq ▸ hj)), hi, hj⟩

/-! ### The recurrence determines the schedule -/

theorem passesWith_nodesIn (d : α) (B : List (List (List α))) :
    passesWith d B = (B.map nodesIn).countP (fun f => f d) := by
  rw [List.countP_map]; rfl

theorem afterLast_map {β γ : Type _} (f : β → γ) (p : γ → Bool) (l : List β) :
    (afterLast (fun x => p (f x)) l).map f = afterLast p (l.map f) := by
  unfold afterLast
  rw [List.map_reverse, ← List.map_reverse (f := f) (l := l), List.takeWhile_map]
  rfl

section
variable {B B' : List (List (List α))} {P P' : List (List α)} {d : α} {q : List (List α)}

theorem passesWith_congr (hB : B.map nodesIn = B'.map nodesIn) : passesWith d B = passesWith d B' := by
  rw [passesWith_nodesIn, passesWith_nodesIn, hB]

theorem seenNow_congr (hP : goesBefore q d n = true → (d ∈ P.flatten ↔ d ∈ P'.flatten)) :
    passesWith d (seenNow q P n d) = passesWith d (seenNow q P' n d) := by
  unfold seenNow
  by_cases hg : goesBefore q d n = true
  · rw [if_pos hg, if_pos hg]
    unfold passesWith
    simp only [List.countP_cons, List.countP_nil, hP hg]
  · rw [if_neg hg, if_neg hg]

theorem passesWith_append (B C : List (List (List α))) :
    passesWith d (B ++ C) = passesWith d B + passesWith d C := by
  unfold passesWith
  exact List.countP_append

theorem calledBy_congr (hB : B.map nodesIn = B'.map nodesIn)
    (hP : goesBefore q d n = true → (d ∈ P.flatten ↔ d ∈ P'.flatten))
    (ts : TimeScale) : calledBy q runs B P ts n d = calledBy q runs B' P' ts n d := by
  have h1 := passesWith_congr (d := d) hB
  have h2 := seenNow_congr hP
  cases ts <;> simp only [calledBy, passesWith_append, h1, h2]

theorem fromLast_map {β γ : Type _} (f : β → γ) (p : γ → Bool) (l : List β) :
    (fromLast (fun x => p (f x)) l).map f = fromLast p (l.map f) := by
  have h := congrArg List.length (afterLast_map f p l)
  rw [List.length_map] at h
  unfold fromLast
  rw [List.map_drop, h, List.length_map]

theorem calledSince_congr (hB : B.map nodesIn = B'.map nodesIn)
    (hP : goesBefore q d n = true → (d ∈ P.flatten ↔ d ∈ P'.flatten)) :
    calledSince q B P n d = calledSince q B' P' n d := by
  unfold calledSince
  by_cases hg : goesBefore q d n = true
  · rw [if_pos hg, if_pos hg]
    have := afterLast_map (nodesIn (α := α)) (fun f => f n) B
    have h2 := afterLast_map (nodesIn (α := α)) (fun f => f n) B'
    rw [hB, ← h2] at this
    have h3 := seenNow_congr hP
    unfold seenNow at h3
    rw [if_pos hg, if_pos hg] at h3
    rw [passesWith_append, passesWith_append, h3]
    congr 1
    exact passesWith_congr this
  · rw [if_neg hg, if_neg hg]
    have := fromLast_map (nodesIn (α := α)) (fun f => f n) B
    have h2 := fromLast_map (nodesIn (α := α)) (fun f => f n) B'
    rw [hB, ← h2] at this
    exact passesWith_congr this

theorem saysLeaf_congr (hB : B.map nodesIn = B'.map nodesIn)
    (hP : ∀ d, goesBefore q d n = true → (d ∈ P.flatten ↔ d ∈ P'.flatten)) (k : Leaf α κ W) :
    saysLeaf q runs B P n k ↔ saysLeaf q runs B' P' n k := by
  have hlen : B.length = B'.length := by simpa using congrArg List.length hB
  cases k with
  | beforeNCalls d k ts => simp only [saysLeaf, calledBy_congr hB (hP d)]
  | atNCalls d k ts => simp only [saysLeaf, calledBy_congr hB (hP d)]
  | afterCall d k ts => simp only [saysLeaf, calledBy_congr hB (hP d)]
  | afterNCalls d k ts => simp only [saysLeaf, calledBy_congr hB (hP d)]
  | everyNCalls d k => simp only [saysLeaf, calledSince_congr hB (hP d)]
  | allHaveRun ds ts =>
    simp only [saysLeaf]
    constructor <;> intro g d hd
    · rw [← calledBy_congr hB (hP d)]; exact g d hd
    · rw [calledBy_congr hB (hP d)]; exact g d hd
  | _ => simp only [saysLeaf, hlen]

mutual
theorem says_congr (hB : B.map nodesIn = B'.map nodesIn)
    (hP : ∀ d, goesBefore q d n = true → (d ∈ P.flatten ↔ d ∈ P'.flatten)) : ∀ c : Cond α κ W,
    (says q runs B P n c ↔ says q runs B' P' n c)
  | .leaf _ k => saysLeaf_congr hB hP k
  | .whileNot _ _ => Iff.rfl
  | .nwhen _ _ _ => Iff.rfl
  | .all _ cs => (saysAll_congr hB hP cs).1
  | .any _ cs => (saysAll_congr hB hP cs).2
  | .not _ c => by simp only [says, says_congr hB hP c]
theorem saysAll_congr (hB : B.map nodesIn = B'.map nodesIn)
    (hP : ∀ d, goesBefore q d n = true → (d ∈ P.flatten ↔ d ∈ P'.flatten)) :
    ∀ cs : List (Cond α κ W),
    (saysAll q runs B P n cs ↔ saysAll q runs B' P' n cs) ∧
      (saysAny q runs B P n cs ↔ saysAny q runs B' P' n cs)
  | [] => ⟨Iff.rfl, Iff.rfl⟩
  | c :: cs => by
    have h1 := says_congr hB hP c
    have h2 := saysAll_congr hB hP cs
    simp only [saysAll, saysAny, h1, h2.1, h2.2, and_self]
end

theorem executesIn_congr (hB : B.map nodesIn = B'.map nodesIn)
    (hP : ∀ d, goesBefore s0.queue d n = true → (d ∈ P.flatten ↔ d ∈ P'.flatten)) :
    executesIn runs B P s0 n ↔ executesIn runs B' P' s0 n := by
  have hw : passesWith n B = passesWith n B' := passesWith_congr hB
  unfold executesIn
  cases hc : Dict.get? s0.conds n with
  | some c =>
    have k : ∀ c : Cond α κ W, says s0.queue runs B P n c ↔ says s0.queue runs B' P' n c :=
      fun c => says_congr hB hP c
    cases c <;> simp only [hw, k]
  | none =>
    cases hg : Dict.get? s0.graph n with
    | none => exact Iff.rfl
    | some ds =>
      simp only
      constructor <;> intro g d hd
      · rw [← calledSince_congr hB (hP d)]; exact g d hd
      · rw [calledSince_congr hB (hP d)]; exact g d hd
end

/-- **C131.** If every node looks at other sets, the passes of a run solve the recurrence. -/
theorem C131_solves (hd : DescribedNodes s0) (hu : Unused s0 a.id) (hr' : CompleteRuns a.id s0 runs s)
    {N : Nat} (hE : AfterPasses N a) (hq : s0.queue.flatten.Nodup)
    (hl : ∀ n ∈ s0.queue.flatten, LooksElsewhere s0 n)
    (hr : Scripted w a s abs h t .returned) : Solves s0 runs (passYields h) := by
  have hl' := hr'.like hd
  have htell := C81_tells s w a (fun i j n hi hj => places_of_nodup hq i j n
    (by rw [← hl'.queue]; exact hi) (by rw [← hl'.queue]; exact hj))
  obtain ⟨hlen, key⟩ := passes_of_returned hd hu hr' hE htell hr
  obtain ⟨_, _, _, k, _⟩ := reference_recurrence (s := s0) (e := aroundOf s w a)
    (T := stop a (aroundOf s w a)) (abs := abs) runs hq (passes h)
  rw [key] at k
  intro B P C hB
  refine ⟨fun n hn => ?_, fun n hn =>
    (C131_recurrence hd hu hr' hE hq hr).2 B P C hB n hn (hl n hn)⟩
  have kP : OrderedPass s0.queue P := k P (by
    show P ∈ passYields h
    rw [hB]; simp)
  obtain ⟨x, y, e, hx, hy⟩ := kP.2 [] s0.queue rfl
  rw [e, List.mem_append] at hn
  exact hn.elim (fun k => by have := hx n k; cases this) (hy n)

/-- **C131.** The recurrence determines the schedule: two schedules of equally many passes for which it holds consist of the same nodes in every pass. -/
theorem C131_determined (hq : s0.queue.flatten.Nodup)
    {E E' : List (List (List α))} (hlen : E.length = E'.length) (h1 : Solves s0 runs E)
    (h2 : Solves s0 runs E') : E.map nodesIn = E'.map nodesIn := by
  have key : ∀ i, i ≤ E.length → (E.take i).map nodesIn = (E'.take i).map nodesIn := by
    intro i
    induction i with
    | zero => intro _; rfl
    | succ i ih =>
      intro hi
      have ih := ih (by omega)
      have e1 : E.take (i + 1) = E.take i ++ [E[i]'(by omega)] := (List.take_append_getElem (by omega)).symm
      have e2 : E'.take (i + 1) = E'.take i ++ [E'[i]'(by omega)] := (List.take_append_getElem (by omega)).symm
      rw [e1, e2, List.map_append, List.map_append, ih]
      congr 1
      obtain ⟨a1, a2⟩ := h1 (E.take i) (E[i]'(by omega)) (E.drop (i + 1)) (by
        rw [← List.singleton_append, ← List.append_assoc, ← e1, List.take_append_drop])
      obtain ⟨b1, b2⟩ := h2 (E'.take i) (E'[i]'(by omega)) (E'.drop (i + 1)) (by
        rw [← List.singleton_append, ← List.append_assoc, ← e2, List.take_append_drop])
      revert a1 a2 b1 b2
      generalize E[i]'(by omega) = P
      generalize E'[i]'(by omega) = P'
      intro a1 a2 b1 b2
      have place : ∀ j n, At s0.queue j n → (n ∈ P.flatten ↔ n ∈ P'.flatten) := by
        intro j
        induction j using Nat.strongRecOn with
        | ind j jh =>
          intro n hn
          have hnq : n ∈ s0.queue.flatten := by
            obtain ⟨l, hl, hnl⟩ := hn
            exact List.mem_flatten.2 ⟨l, List.mem_of_getElem? hl, hnl⟩
          rw [a2 n hnq, b2 n hnq]
          refine executesIn_congr ih (fun d hd => ?_)
          obtain ⟨l, hl, hnl⟩ := hn
          have hj : j < s0.queue.length := (List.getElem?_eq_some_iff.1 hl).1
          have hlj : s0.queue[j] = l := (List.getElem?_eq_some_iff.1 hl).2
          have es : s0.queue = s0.queue.take j ++ l :: s0.queue.drop (j + 1) := by
            rw [← hlj, ← List.drop_eq_getElem_cons hj, List.take_append_drop]
          obtain ⟨m, hm, hdm⟩ := List.mem_flatten.1 ((goesBefore_iff hq es hnl d).1 hd)
          obtain ⟨i', hi'⟩ := List.getElem?_of_mem hm
          have hlt : i' < j := by
            have := (List.getElem?_eq_some_iff.1 hi').1
            rw [List.length_take] at this
            omega
          exact jh i' hlt d ⟨m, by rw [List.getElem?_take_of_lt hlt] at hi'; exact hi', hdm⟩
      have : nodesIn P = nodesIn P' := by
        funext n
        unfold nodesIn
        by_cases hn : n ∈ s0.queue.flatten
        · obtain ⟨l, hl1, hl2⟩ := List.mem_flatten.1 hn
          obtain ⟨j, hj⟩ := List.getElem?_of_mem hl1
          have := place j n ⟨l, hj, hl2⟩
          rw [decide_eq_decide]; exact this
        · rw [decide_eq_false fun k => hn (a1 n k), decide_eq_false fun k => hn (b1 n k)]
      simp [this]
  have := key E.length (Nat.le_refl _)
  rw [List.take_length, hlen, List.take_length] at this
  exact this

/-- **C131.** Two runs of equally many passes, after the same runs, under the same execution id or
different ones, in absolute time or not, whatever their consumers do and whatever else ends a time
scale: the same nodes execute in every pass. -/
theorem C131_same {s' t' : Sys α κ W} {w' : List (List α) → World α κ W} {a' : RunArgs α κ W}
    {h' : History α κ W} {abs' : Bool} (hd : DescribedNodes s0) (hu : Unused s0 a.id)
    (hu' : Unused s0 a'.id) (hc : CompleteRuns a.id s0 runs s) (hc' : CompleteRuns a'.id s0 runs s')
    {N : Nat} (hE : AfterPasses N a) (hE' : AfterPasses N a') (hq : s0.queue.flatten.Nodup)
    (hl : ∀ n ∈ s0.queue.flatten, LooksElsewhere s0 n)
    (hr : Scripted w a s abs h t .returned) (hr' : Scripted w' a' s' abs' h' t' .returned) :
    (passYields h).map nodesIn = (passYields h').map nodesIn := by
  have h1 := (C131_recurrence hd hu hc hE hq hr).1
  have h2 := (C131_recurrence hd hu' hc' hE' hq hr').1
  exact C131_determined hq (h1.trans h2.symm) (C131_solves hd hu hc hE hq hl hr)
    (C131_solves hd hu' hc' hE' hq hl hr')

/-! ## A concrete case -/

/-- `0 → 1 → 2 → 3`: node 1 has `AtNCalls(0, 2)` or `EveryNCalls(0, 3)`, node 2 has
`NWhen(AfterNCalls(1, 2), 3)`, nodes 0 and 3 have no condition. -/
def mixSys : Sys Nat Nat Unit :=
  (((Sys.new [(1, [0]), (2, [1]), (3, [2])] .standard none 0 demoWorld).alloc 7).addBasic 1
    (.any 0 [.leaf 1 (.atNCalls 0 2 .environment_state_update), .leaf 2 (.everyNCalls 0 3)])).addBasic 2
    (.nwhen 4 (.leaf 5 (.afterNCalls 1 2 .environment_state_update)) 3)

def mixRun := scriptAfter constWorld tenPasses mixSys 200

theorem mixRun_run : passYields mixRun.1 =
    [[[0]], [[0], [1]], [[0]], [[0]], [[0], [1], [2], [3]], [[0], [2], [3]], [[0], [2], [3]], [[0], [1]],
      [[0]], [[0]]] ∧ mixRun.2.2 = .returned := by
  decide +kernel

theorem mix_described : DescribedNodes mixSys := by
  intro n hn
  have : n = 0 ∨ n = 1 ∨ n = 2 ∨ n = 3 := by
    have e : mixSys.queue.flatten = [0, 1, 2, 3] := by decide +kernel
    rw [e] at hn; simpa using hn
  rcases this with rfl | rfl | rfl | rfl
  · exact ⟨by decide +kernel, .inr (.inr ⟨by rfl, [], by decide +kernel, by decide +kernel⟩)⟩
  · refine ⟨by decide +kernel, .inl ⟨_, rfl, .any ?_⟩⟩
    intro c hc
    rcases List.mem_cons.1 hc with rfl | hc
    · exact .leaf (.inl (by decide)) (fun e => e.elim)
    · rw [List.mem_singleton] at hc
      subst hc
      exact .leaf rfl fun _ => ⟨by decide +kernel, by decide +kernel⟩
  · refine ⟨by decide +kernel, .inr (.inl ⟨_, _, _, rfl, .leaf (.inl (by decide)) (fun e => e.elim),
      by decide +kernel, fun m c' k' h => ?_⟩)⟩
    have := Dict.mem_of_get? h
    rcases List.mem_cons.1 this with h | h
    · cases h
    · rcases List.mem_cons.1 h with h | h
      · cases h; rfl
      · cases h
  · exact ⟨by decide +kernel, .inr (.inr ⟨by rfl, [2], by decide +kernel, by decide +kernel⟩)⟩

theorem mix_looks : ∀ n ∈ mixSys.queue.flatten, LooksElsewhere mixSys n := by
  have e : mixSys.queue = [[0], [1], [2], [3]] := by decide +kernel
  have hb : ∀ i, i < 3 → InAnotherSet mixSys.queue i (i + 1) := by
    intro i hi
    rw [e]
    match i, hi with
    | 0, _ => exact ⟨0, 1, by decide, ⟨[0], rfl, by decide⟩, ⟨[1], rfl, by decide⟩⟩
    | 1, _ => exact ⟨1, 2, by decide, ⟨[1], rfl, by decide⟩, ⟨[2], rfl, by decide⟩⟩
    | 2, _ => exact ⟨2, 3, by decide, ⟨[2], rfl, by decide⟩, ⟨[3], rfl, by decide⟩⟩
  intro n hn
  have : n = 0 ∨ n = 1 ∨ n = 2 ∨ n = 3 := by
    rw [e] at hn; simpa using hn
  have g0 : Dict.get? mixSys.graph 0 = some [] := by decide +kernel
  have g3 : Dict.get? mixSys.graph 3 = some [2] := by decide +kernel
  rcases this with rfl | rfl | rfl | rfl
  · exact .inr (.inr ⟨by rfl, fun ds hds d hd => by rw [g0] at hds; cases hds; cases hd⟩)
  · refine .inl ⟨_, rfl, .any ?_⟩
    intro c hc
    rcases List.mem_cons.1 hc with rfl | hc
    · exact .leaf ⟨hb 0 (by decide), by decide⟩
    · rw [List.mem_singleton] at hc
      subst hc
      exact .leaf (hb 0 (by decide))
  · exact .inr (.inl ⟨_, _, _, rfl, .leaf ⟨hb 1 (by decide), by decide⟩⟩)
  · refine .inr (.inr ⟨by rfl, fun ds hds d hd => ?_⟩)
    rw [g3] at hds
    cases hds
    rw [List.mem_singleton] at hd
    subst hd
    exact hb 2 (by decide)

/-- The hypotheses of `C131_recurrence` and `C131_determined` hold for this scheduler. -/
example : DescribedNodes mixSys ∧ Unused mixSys tenPasses.id ∧ AfterPasses 10 tenPasses ∧
    mixSys.queue.flatten.Nodup ∧ (∀ n ∈ mixSys.queue.flatten, LooksElsewhere mixSys n) ∧
    Scripted constWorld tenPasses mixSys false mixRun.1 mixRun.2.1 .returned := by
  have k1 := scriptAfter_scripted (w := constWorld) (a := tenPasses) (s0 := mixSys)
    (abs := false) (by decide +kernel) 200
  have e1 : (scriptAfter constWorld tenPasses mixSys 200).2.2 = .returned := mixRun_run.2
  rw [e1] at k1
  exact ⟨mix_described, ⟨by rfl, by rfl, .new, fun _ _ _ _ _ => by rfl⟩, ⟨rfl, rfl⟩, by decide +kernel,
    mix_looks, k1⟩

/-- `0 → 1`, and conditions in both directions: node 0 has `AtPass(0)` or `EveryNCalls(1, 2)`, node 1 has
`Not(AtNCalls(0, 3))`. -/
def backSys : Sys Nat Nat Unit :=
  (((Sys.new [(1, [0])] .standard none 0 demoWorld).alloc 7).addBasic 0
    (.any 0 [.leaf 1 (.atPass 0 .environment_state_update), .leaf 2 (.everyNCalls 1 2)])).addBasic 1
    (.not 3 (.leaf 4 (.atNCalls 0 3 .environment_state_update)))

def backRun := scriptAfter constWorld tenPasses backSys 200

theorem backRun_run : passYields backRun.1 =
    [[[0], [1]], [[1]], [[0], [1]], [[1]], [[0]], [[]], [[]], [[]], [[]], [[]]] ∧
      backRun.2.2 = .returned := by
  decide +kernel

theorem back_described : DescribedNodes backSys := by
  intro n hn
  have : n = 0 ∨ n = 1 := by
    have e : backSys.queue.flatten = [0, 1] := by decide +kernel
    rw [e] at hn; simpa using hn
  rcases this with rfl | rfl
  · refine ⟨by decide +kernel, .inl ⟨_, rfl, .any ?_⟩⟩
    intro c hc
    rcases List.mem_cons.1 hc with rfl | hc
    · exact .leaf (by show 1 < 2; decide) (fun e => e.elim)
    · rw [List.mem_singleton] at hc
      subst hc
      exact .leaf rfl fun _ => ⟨by decide +kernel, by decide +kernel⟩
  · exact ⟨by decide +kernel, .inl ⟨_, rfl, .not (.leaf (.inl (by decide)) (fun e => e.elim))⟩⟩

theorem back_looks : ∀ n ∈ backSys.queue.flatten, LooksElsewhere backSys n := by
  have e : backSys.queue = [[0], [1]] := by decide +kernel
  have a0 : At backSys.queue 0 0 := by rw [e]; exact ⟨[0], rfl, by decide⟩
  have a1 : At backSys.queue 1 1 := by rw [e]; exact ⟨[1], rfl, by decide⟩
  intro n hn
  have : n = 0 ∨ n = 1 := by
    rw [e] at hn; simpa using hn
  rcases this with rfl | rfl
  · refine .inl ⟨_, rfl, .any ?_⟩
    intro c hc
    rcases List.mem_cons.1 hc with rfl | hc
    · exact .leaf (by first | trivial | decide)
    · rw [List.mem_singleton] at hc
      subst hc
      exact .leaf ⟨1, 0, by decide, a1, a0⟩
  · exact .inl ⟨_, rfl, .not (.leaf ⟨⟨0, 1, by decide, a0, a1⟩, by decide⟩)⟩

/-- The hypotheses of `C131_recurrence` and `C131_solves` hold for this scheduler. -/
example : DescribedNodes backSys ∧ Unused backSys tenPasses.id ∧ AfterPasses 10 tenPasses ∧
    backSys.queue.flatten.Nodup ∧ (∀ n ∈ backSys.queue.flatten, LooksElsewhere backSys n) ∧
    Scripted constWorld tenPasses backSys false backRun.1 backRun.2.1 .returned := by
  have k1 := scriptAfter_scripted (w := constWorld) (a := tenPasses) (s0 := backSys)
    (abs := false) (by decide +kernel) 200
  have e1 : (scriptAfter constWorld tenPasses backSys 200).2.2 = .returned := backRun_run.2
  rw [e1] at k1
  exact ⟨back_described, ⟨by rfl, by rfl, .new, fun _ _ _ _ _ => by rfl⟩, ⟨rfl, rfl⟩, by decide +kernel,
    back_looks, k1⟩

/-- A run of `mixSys` with the default termination condition. -/
def mixAll : RunArgs Nat Nat Unit :=
  { id := none, esu := .leaf 20 (.allHaveRun [] .environment_state_update), seq := .leaf 23 .never }

/-- The hypotheses of `C131_only` hold for it when its fourth pass is over. -/
example : DescribedEnd mixAll ∧ Unused mixSys mixAll.id ∧ ∃ h t,
    Scripted constWorld mixAll mixSys false h t .outer ∧
    passYields h = [[[0]], [[0], [1]], [[0]], [[0]]] := by
  have k1 := scriptAfter_scripted (w := constWorld) (a := mixAll) (s0 := mixSys)
    (abs := false) (by decide +kernel) 71
  have e1 : (scriptAfter constWorld mixAll mixSys 71).2.2 = .outer := by decide +kernel
  rw [e1] at k1
  exact ⟨fun st => ⟨.leaf (.inl (by decide)) fun e => e.elim, .leaf trivial fun e => e.elim⟩,
    ⟨by rfl, by rfl, .new, fun _ _ _ _ _ => by rfl⟩, _, _, k1, by decide +kernel⟩

/-- Another run of `mixSys`, in absolute time. -/
def mixTimed : RunArgs Nat Nat Unit :=
  { tenPasses with others := [.leaf 30 (.timeTermination ⟨1000, 0⟩ true)] }

example : AfterPasses 10 mixTimed ∧ Unused mixSys mixTimed.id ∧ ∃ h t,
    Scripted constWorld mixTimed mixSys true h t .returned ∧
    passYields h = [[[0], [], [], []], [[0], [1], [], []], [[0], [], [], []], [[0], [], [], []],
      [[0], [1], [2], [3]], [[0], [], [2], [3]], [[0], [], [2], [3]], [[0], [1], [], []],
      [[0], [], [], []], [[0], [], [], []]] := by
  have k1 := scriptAfter_scripted (w := constWorld) (a := mixTimed) (s0 := mixSys)
    (abs := true) (by decide +kernel) 800
  have e1 : (scriptAfter constWorld mixTimed mixSys 800).2.2 = .returned := by decide +kernel
  rw [e1] at k1
  exact ⟨⟨rfl, rfl⟩, ⟨by rfl, by rfl, .new, fun _ _ _ _ _ => by rfl⟩, _, _, k1, by decide +kernel⟩

end GS.Props

import Verif.StuckRun
import Verif.RestateRule
/-!
# Lemmas for C99: which nodes keep executing
-/

set_option linter.unusedSectionVars false

namespace GS
open Spec TimeScale Props
variable {α κ W : Type _} [DecidableEq α] [DecidableEq κ]
variable {E : Sys α κ W → Sys α κ W → Prop} {a : RunArgs α κ W} {s0 s1 s : Sys α κ W}
variable {abs : Bool} {h : History α κ W} {pc : PC α}

/-- In any `M + 1` successive passes, the node is selected. -/
def Recurs (E : Sys α κ W → Sys α κ W → Prop) (a : RunArgs α κ W) (s0 : Sys α κ W) (abs : Bool)
    (M : Nat) (n : α) : Prop :=
  ∀ g1 g2 s pc, Reach E a s0 abs (g1 ++ g2) s pc → M < passes g2 → n ∈ selections g2

theorem Recurs.mono {M M' : Nat} {n : α} (hr : Recurs E a s0 abs M n) (hM : M ≤ M') :
    Recurs E a s0 abs M' n :=
  fun g1 g2 s pc h1 h2 => hr g1 g2 s pc h1 (Nat.lt_of_le_of_lt hM h2)

theorem Recurs.count {M : Nat} {n : α} (hn : Recurs E a s0 abs M n) : ∀ (N : Nat)
    (g1 g2 : History α κ W) (s : Sys α κ W) (pc : PC α), Reach E a s0 abs (g1 ++ g2) s pc →
    N * (M + 1) ≤ passes g2 → N ≤ (selections g2).count n
  | 0, _, _, _, _, _, _ => Nat.zero_le _
  | N + 1, g1, g2, s, pc, hr, hp => by
    rw [Nat.succ_mul] at hp
    obtain ⟨x, y, rfl, hx⟩ := passes_split g2 (N * (M + 1)) (by omega)
    rw [passes_append] at hp
    obtain ⟨s', pc', hr'⟩ := hr.pre (g := g1 ++ x) (g' := y) (by simp)
    have i1 := hn.count N g1 x s' pc' hr' (by omega)
    have i2 := hn (g1 ++ x) y s pc (by simpa using hr) (by omega)
    rw [selections_append, List.count_append]
    have := List.count_pos_iff.2 i2
    omega

/-- In any two successive passes a choice is made from each consideration set, if passes that
are followed by another one are not cut short. -/
theorem Reach.choice_made (hr : Reach E a s0 abs h s pc) {g1 g2 : History α κ W} (hh : h = g1 ++ g2)
    (hp : 2 ≤ passes g2) {j : Nat} (hj : PassesReach j h) :
    ∃ x e y set shown, g2 = x ++ e :: y ∧ e.ev = .layer j set shown ∧ passes g2 = passes x + 1 ∧
      ∀ n ∈ set, n ∈ selections x := by
  obtain ⟨x, e, y, rfl, he, hy⟩ := last_pass g2 (by omega)
  have hpx : passes (x ++ e :: y) = passes x + 1 := by
    rw [passes_append]
    have : passes (e :: y) = passes y + 1 := by
      unfold passes; rw [List.countP_cons, if_pos (by simp [isPassStart, he])]
    omega
  obtain ⟨x1, b, cur, rfl, hb, hcur⟩ := last_pass x (by omega)
  have hh' : h = (g1 ++ (x1 ++ b :: cur)) ++ e :: y := by rw [hh]; simp
  have hcp : currentPass (g1 ++ (x1 ++ b :: cur)) = cur := by
    rw [← List.append_assoc]
    refine afterLast_append_cons _ _ _ _ (by simp [isPassStart, hb]) fun z hz => ?_
    have : ¬ isPassStart z = true := fun hz' => by
      have : 0 < passes cur := List.countP_pos_iff.2 ⟨z, hz, hz'⟩
      omega
    simpa using this
  have hjc := hj _ e y hh' he ⟨b, by simp, hb⟩
  rw [hcp] at hjc
  obtain ⟨p, p', hr1, hs, _⟩ := hr.entry _ e y hh'
  have hp : p = .outer := by
    have hst := Sys.step_stepR hs
    generalize hx : some e.ev = ev at hst
    generalize e.after = sa at hst
    rw [he] at hx
    cases hst with
    | pass => rfl
    | fails _ _ hx' => rcases hx' with rfl | ⟨_, rfl, _⟩ <;> cases hx
    | _ => cases hx
  subst hp
  have hch := hr1.chosen j (by rw [hcp]; exact hjc)
  rw [hcp] at hch
  rcases hch with ⟨e', he', set, shown, hl⟩ | ⟨c, hc, _⟩ | ⟨er, hc⟩
  · obtain ⟨u, v, rfl⟩ := List.append_of_mem he'
    have hcur0 : passes u = 0 := by rw [passes_append] at hcur; omega
    have hev0 : passes (e' :: v) = 0 := by rw [passes_append] at hcur; omega
    refine ⟨x1 ++ b :: u, e', v ++ e :: y, set, shown, by simp, hl, ?_, ?_⟩
    · rw [hpx]
      congr 1
      rw [show x1 ++ b :: (u ++ e' :: v) = (x1 ++ b :: u) ++ e' :: v by simp, passes_append, hev0]
      rfl
    · obtain ⟨c, hc, rfl, rfl, _⟩ := hr.layerEntry (h1 := g1 ++ (x1 ++ b :: u)) (e := e')
        (h2 := v ++ e :: y) (by rw [hh]; simp) hl
      have ci := hc.choice c rfl
      obtain ⟨pre, hpre, _, _⟩ := afterLast_split isConsider (g1 ++ (x1 ++ b :: u))
      have hsuf : afterLast isConsider (g1 ++ (x1 ++ b :: u)) <:+ (g1 ++ x1) ++ (b :: u) :=
        ⟨pre, by rw [← hpre]; simp⟩
      have hsuf2 : (b :: u) <:+ (g1 ++ x1) ++ (b :: u) := ⟨_, rfl⟩
      intro n hn
      rw [← ci.sel] at hn
      rcases List.suffix_or_suffix_of_suffix hsuf hsuf2 with hx | hx
      · obtain ⟨w, hw⟩ := hx
        rw [selections_append, ← hw, selections_append]
        simp [hn]
      · obtain ⟨n', hn'⟩ := ci.adds b (hx.subset (by simp))
        rw [hb] at hn'; cases hn'
  · cases hc
  · cases hc

mutual
theorem comes_mono {nodes : List α} {st : Store α κ} {b : α} {X Y : α → Prop}
    (hXY : ∀ d ∈ nodes, X d → Y d) : ∀ c : Cond α κ W, WaitsOnly nodes st b c →
    Spec.Comes nodes X c → Spec.Comes nodes Y c
  | .leaf o k, hw, h => by
    cases k <;> simp only [WaitsOnly, Spec.Comes] at hw h ⊢
    case afterCall => exact fun hn => hXY _ hw.2 (h hn)
    case afterNCalls => exact fun hn => hXY _ hw.2 (h hn)
    case everyNCalls => exact fun hn => hXY _ hw.1 (h hn)
    case allHaveRun ds ts =>
      intro d hd
      refine hXY d ?_ (h d hd)
      unfold Meant at hd
      split at hd
      · exact hd
      · exact hw.2 d hd
  | .all _ args, hw, h => by
    simp only [WaitsOnly, Spec.Comes] at hw h ⊢; exact allCome_mono hXY args hw h
  | .any _ args, hw, h => by
    simp only [WaitsOnly, Spec.Comes] at hw h ⊢; exact someComes_mono hXY args hw h
  | .not _ _, hw, _ => by simp only [WaitsOnly] at hw
  | .nwhen _ _ _, hw, _ => by simp only [WaitsOnly] at hw
  | .whileNot _ _, hw, _ => by simp only [WaitsOnly] at hw
theorem allCome_mono {nodes : List α} {st : Store α κ} {b : α} {X Y : α → Prop}
    (hXY : ∀ d ∈ nodes, X d → Y d) : ∀ cs : List (Cond α κ W), WaitOnly nodes st b cs →
    AllCome nodes X cs → AllCome nodes Y cs
  | [], _, _ => trivial
  | c :: cs, hw, h => ⟨comes_mono hXY c hw.1 h.1, allCome_mono hXY cs hw.2 h.2⟩
theorem someComes_mono {nodes : List α} {st : Store α κ} {b : α} {X Y : α → Prop}
    (hXY : ∀ d ∈ nodes, X d → Y d) : ∀ cs : List (Cond α κ W), WaitOnly nodes st b cs →
    SomeComes nodes X cs → SomeComes nodes Y cs
  | [], _, h => h.elim
  | c :: cs, hw, h => h.imp (comes_mono hXY c hw.1) (someComes_mono hXY cs hw.2)
end

theorem nodeComes_mono (hH : Healthy s0) (hW : OnlyWaiting s0) {X Y : α → Prop} {n : α}
    (hn : n ∈ s0.nodes) (hXY : ∀ d ∈ s0.nodes, X d → Y d) (hc : NodeComes s0 X n) :
    NodeComes s0 Y n := by
  rcases hc with ⟨c, h1, h2⟩ | ⟨h1, deps, h2, h3⟩
  · exact .inl ⟨c, h1, comes_mono hXY c (hW n hn c h1) h2⟩
  · exact .inr ⟨h1, deps, h2, fun d hd => hXY d (hH.senders n deps h2 d hd) (h3 d hd)⟩

section
variable (ha : DefaultTermination a) (hE : LeavesBooks E a.id) (hH : Healthy s0)
  (hW : OnlyWaiting s0) (hs1 : s0.start a = (s1, .ok abs))
include ha hE hH hW hs1

/-- If what a node waits for comes from nodes that are selected regularly, it is so itself. -/
theorem regular_of_comes {n : α} (hn : n ∈ s0.nodes)
    (hc : NodeComes s0 (fun d => ∃ M, Recurs E a s0 abs M d) n) :
    ∃ M, Recurs E a s0 abs M n := by
  apply Classical.byContradiction
  intro hno
  obtain ⟨c, hcn, hw, hcomes⟩ := started_waits hH hW hs1 hn
  have hcx := (hcomes _).2 hc
  obtain ⟨j, hj⟩ := exists_at ((hH.placed n).2 hn)
  have hjl : j < s0.queue.length := (List.getElem?_eq_some_iff.1 hj.choose_spec.1).1
  -- situations in which `n` was not selected for `t` passes
  have grow : Growing (fun d => ∃ M, Recurs E a s0 abs M d)
      (fun t p cnt use => ∃ g1 g2 s pc u, Reach E a s0 abs (g1 ++ g2) s pc ∧ t ≤ passes g2 ∧
        n ∉ selections g2 ∧ passes (g1 ++ g2) ≤ p + 1 ∧ UseInv (selections (g1 ++ g2)) u ∧
        cnt = (fun d => (selections (g1 ++ g2)).count d) ∧ use = fun d => u d n) := by
    refine ⟨?_, ?_, ?_⟩
    · rintro t t' p cnt use ht ⟨g1, g2, s, pc, u, h1, h2, h3⟩
      exact ⟨g1, g2, s, pc, u, h1, Nat.le_trans ht h2, h3⟩
    · intro N
      refine ⟨N + 1, ?_⟩
      rintro p cnt use ⟨g1, g2, s, pc, u, h1, h2, _, h4, _⟩
      rw [passes_append] at h4
      omega
    · rintro d ⟨M, hM⟩ N
      refine ⟨N * (M + 1), ?_⟩
      rintro p cnt use ⟨g1, g2, s, pc, u, h1, h2, h3, _, h5, rfl, rfl⟩
      have hdn : d ≠ n := fun e => hno ⟨M, e ▸ hM⟩
      have hcount := hM.count N g1 g2 s pc h1 h2
      constructor
      · show N ≤ (selections (g1 ++ g2)).count d
        rw [selections_append, List.count_append]; omega
      · show N ≤ u d n
        rw [h5.diff d n hdn, selections_append, since_append_not_mem _ _ h3, List.count_append]
        omega
  obtain ⟨t, ht⟩ := holds_later grow c hcx
  refine hno ⟨t + 1, fun g1 g2 s pc hr hp => ?_⟩
  apply Classical.byContradiction
  intro hns
  obtain ⟨x, e, y, set, shown, rfl, hl, hpx, hset⟩ := hr.choice_made rfl (by omega)
    (hr.defaultPasses ha hE.total hE.nodes hE.queue hjl)
  have hnx : n ∉ selections x := fun hx => hns (by rw [selections_append]; simp [hx])
  have hh : g1 ++ (x ++ e :: y) = (g1 ++ x) ++ e :: y := by simp
  obtain ⟨ch, hrc, _⟩ := hr.layerEntry hh hl
  obtain ⟨p, u, hpp, hui, hsees⟩ := hrc.sees hE hH hn
  have hholds := ht p _ _ ⟨g1, x, _, _, u, hrc, by omega, hnx, hpp, hui, rfl, rfl⟩
  obtain ⟨layer, hq, hmax⟩ := C08_maximal hr hh hl
  rw [hrc.keepQueue hE.queue] at hq
  obtain ⟨layer', hq', hnl⟩ := hj
  rw [hq] at hq'; cases hq'
  obtain ⟨cond, st, k1, k2, _, k4⟩ := hmax n hnl (fun hx => hnx (hset n hx))
  rw [hrc.keepConds hE.conds hs1, hcn] at k1
  cases k1
  rw [eval_holds hsees (k2.trans (hrc.keepOwner hE.owner hs1)) c hw, hholds] at k4
  cases k4

/-- Every node that is in no circle is selected regularly. -/
theorem regular_or_stuck : ∃ K : List α, (∀ n ∈ K, n ∈ s0.nodes) ∧ Stuck s0 K ∧
    ∀ n ∈ s0.nodes, n ∉ K → ∃ M, Recurs E a s0 abs M n := by
  have hdec : ∃ K : List α, ∀ n, n ∈ K ↔ n ∈ s0.nodes ∧ ¬ ∃ M, Recurs E a s0 abs M n := by
    have key : ∀ (P : α → Prop) (l : List α), ∃ K : List α, ∀ n, n ∈ K ↔ n ∈ l ∧ P n := by
      intro P l
      induction l with
      | nil => exact ⟨[], by simp⟩
      | cons x l ih =>
        obtain ⟨K, hK⟩ := ih
        by_cases hx : P x
        · refine ⟨x :: K, fun n => ?_⟩
          simp only [List.mem_cons, hK]
          constructor
          · rintro (rfl | h)
            · exact ⟨.inl rfl, hx⟩
            · exact ⟨.inr h.1, h.2⟩
          · rintro ⟨rfl | h, hp⟩
            · exact .inl rfl
            · exact .inr ⟨h, hp⟩
        · refine ⟨K, fun n => ?_⟩
          simp only [List.mem_cons, hK]
          constructor
          · exact fun h => ⟨.inr h.1, h.2⟩
          · rintro ⟨rfl | h, hp⟩
            · exact absurd hp hx
            · exact ⟨h, hp⟩
    exact key _ _
  obtain ⟨K, hK⟩ := hdec
  have hX : ∀ d ∈ s0.nodes, d ∉ K → ∃ M, Recurs E a s0 abs M d := fun d hd hdk =>
    Classical.byContradiction fun hno => hdk ((hK d).2 ⟨hd, hno⟩)
  refine ⟨K, fun n hn => ((hK n).1 hn).1, fun n hn hc => ?_, hX⟩
  obtain ⟨h1, h2⟩ := (hK n).1 hn
  exact h2 (regular_of_comes ha hE hH hW hs1 h1 (nodeComes_mono hH hW h1 hX hc))

/-- If no nodes wait for each other in a circle, the number of passes is bounded. -/
theorem passes_bounded (hno : ∀ K, K ≠ [] → (∀ n ∈ K, n ∈ s0.nodes) → ¬ Stuck s0 K) :
    ∃ B, ∀ h s pc, Reach E a s0 abs h s pc → passes h ≤ B := by
  obtain ⟨K, h1, h2, h3⟩ := regular_or_stuck ha hE hH hW hs1
  have hK : K = [] := Classical.byContradiction fun hne => hno K hne h1 h2
  subst hK
  have hall : ∃ M, ∀ n ∈ s0.nodes, Recurs E a s0 abs M n := by
    have key : ∀ l : List α, (∀ n ∈ l, ∃ M, Recurs E a s0 abs M n) →
        ∃ M, ∀ n ∈ l, Recurs E a s0 abs M n := by
      intro l
      induction l with
      | nil => intro _; exact ⟨0, by simp⟩
      | cons x l ih =>
        intro hl
        obtain ⟨M1, i1⟩ := hl x (by simp)
        obtain ⟨M2, i2⟩ := ih fun n hn => hl n (by simp [hn])
        refine ⟨max M1 M2, fun n hn => ?_⟩
        rcases List.mem_cons.1 hn with rfl | hn
        · exact i1.mono (Nat.le_max_left _ _)
        · exact (i2 n hn).mono (Nat.le_max_right _ _)
    exact key _ fun n hn => h3 n hn (by simp)
  obtain ⟨M, hM⟩ := hall
  refine ⟨M + 1, fun h s pc hr => ?_⟩
  apply Classical.byContradiction
  intro hgt
  obtain ⟨x, e, y, rfl, he, hy⟩ := last_pass h (by omega)
  have hpx : passes (x ++ e :: y) = passes x + 1 := by
    rw [passes_append]
    have : passes (e :: y) = passes y + 1 := by
      unfold passes; rw [List.countP_cons, if_pos (by simp [isPassStart, he])]
    omega
  obtain ⟨p, p', hr1, hs, _⟩ := hr.entry x e y rfl
  have hg : ∃ st, Going e.before a st := by
    have hst := Sys.step_stepR hs
    generalize hx : some e.ev = ev at hst
    generalize e.after = sa at hst
    rw [he] at hx
    cases hst with
    | pass hg => exact ⟨_, hg⟩
    | fails _ _ hx' => rcases hx' with rfl | ⟨_, rfl, _⟩ <;> cases hx
    | _ => cases hx
  obtain ⟨st, hg⟩ := hg
  obtain ⟨n, hn, hns⟩ := hr1.defaultGoing ha hE.total hE.nodes hg
  exact hns (hM n hn [] x _ _ hr1 (by omega))

end

/-- Runs of such schedulers outside absolute-time mode do not raise. -/
theorem waiting_safe (ha : DefaultTermination a) (hE : LeavesBooks E a.id) (hH : Healthy s0)
    (hW : OnlyWaiting s0) (hr : Reach E a s0 false h s pc) : ∀ e, pc ≠ .raised e := by
  generalize hab : false = ab at hr
  induction hr with
  | start hs => simp
  | @step abs h s s' pc pc' ev hr hs ih =>
    subst hab
    have hpc := ih rfl
    obtain ⟨s1, hs1⟩ := hr.started
    obtain ⟨f, _, hf, _⟩ := C11_run_count hr hE.total
    obtain ⟨u, hu, _⟩ := hr.useable hE.useable
    obtain ⟨l0, hl0, _⟩ := (Sys.start_ok hs1).list
    have hl := hr.execs hE.list hpc hs1 hl0
    obtain ⟨log0, h0⟩ := hH.clock a.id
    obtain ⟨lg, hlg⟩ := (hr.clockAt hE.clock h0).shows hpc
    refine Sys.step_safe (fun st _ _ => ⟨_, by rw [hr.defaultEsu ha hE.total hE.nodes]⟩)
        (fun d st _ _ => ⟨_, by rw [seq_never ha]⟩) hlg hf hu hl ?_ hpc hs
    rintro c rfl n hn
    have ci := hr.choice c rfl
    obtain ⟨d, hdd⟩ := ci.todo
    have hat : At s0.queue c.idx n :=
      ⟨c.layer, by rw [← hr.keepQueue hE.queue]; exact ci.queue, by rw [hdd]; simp [hn]⟩
    have hmem := (hH.placed n).1 (At.mem hat)
    obtain ⟨cd, c1, c2, _⟩ := started_waits hH hW hs1 hmem
    obtain ⟨p, u', _, _, hsees⟩ := hr.sees hE hH hmem
    refine ⟨by rw [hr.keepNodes hE.nodes]; exact hmem, cd, by rw [hr.keepConds hE.conds hs1]; exact c1,
      fun st ho _ => ?_⟩
    rw [eval_holds hsees (ho.trans (hr.keepOwner hE.owner hs1)) cd c2]
    exact ⟨_, rfl⟩
  | env hr _ _ ih => exact ih hab

/-- Nodes that wait for each other in a circle are never selected. -/
theorem stuck_never (hE : LeavesBooks E a.id) (hH : Healthy s0) (hW : OnlyWaiting s0) {K : List α}
    (hK : Stuck s0 K) (hr : Reach E a s0 abs h s pc) : ∀ n ∈ K, n ∉ selections h := by
  refine hr.ind (P := fun h _ _ => ∀ n ∈ K, n ∉ selections h) ?_ ?_ ?_
  · intro s _ n _; simp [selections]
  · intro h s s' pc pc' ev hr ih hst
    cases ev with
    | none => rw [ext_none]; exact ih
    | some x =>
      by_cases hx : x.add? = none
      · rw [selections_ext_none _ _ _ _ hx]; exact ih
      · cases hst with
        | @add c m ns cond st f u ht hm hc he hf hu hmem =>
          have hmn : m ∈ s0.nodes := by rw [← hr.keepNodes hE.nodes]; exact hmem
          intro n hn hsel
          rw [ext_some, selections_snoc] at hsel
          rcases List.mem_append.1 hsel with h1 | h1
          · exact ih n hn h1
          · simp [Event.add?] at h1
            subst h1
            obtain ⟨s1, hs1⟩ := hr.started
            obtain ⟨cd, c1, c2, c3⟩ := started_waits hH hW hs1 hmn
            rw [hr.keepConds hE.conds hs1, c1] at hc
            injection hc with hc
            subst hc
            obtain ⟨p, u', _, hui, hsees⟩ := hr.sees hE hH hmn
            rw [eval_holds hsees (hr.keepOwner hE.owner hs1) cd c2] at he
            have hh : holds s0.nodes p (fun d => (selections h).count d) (fun d => u' d n) cd = true := by
              have := congrArg Prod.fst he
              simpa using this
            refine hK n hn ((c3 _).1 (comes_of_holds ?_ ?_ cd hh))
            · intro d hd hdk
              exact ih d hdk (List.count_pos_iff.1 hd)
            · intro d hd hdk
              by_cases hdn : d = n
              · subst hdn
                rw [hui.self, if_neg (ih d hdk)] at hd
                omega
              · rw [hui.diff d n hdn] at hd
                have hmem' := List.count_pos_iff.1 hd
                obtain ⟨pre, hpre, _⟩ := afterLast_split (fun x => decide (x = n)) (selections h)
                refine ih d hdk ?_
                rw [hpre]
                exact List.mem_append.2 (.inr hmem')
        | fails _ _ hx' =>
          rcases hx' with hx' | ⟨_, hx', _⟩
          · cases hx'
          · cases hx'; simp [Event.add?] at hx
        | _ => simp [Event.add?] at hx
  · intro h s s' pc _ ih _ _; exact ih

end GS

import Verif.RunDefault
import Verif.Props.Run
/-!
# C10-C13, C15-C17 (one run): counters, EveryNCalls, termination, empty sets, history
-/

set_option linter.unusedSectionVars false

namespace GS.Props
open Spec
variable {α κ W β : Type _} [DecidableEq α] [DecidableEq κ]
variable {E : Sys α κ W → Sys α κ W → Prop} {a : RunArgs α κ W} {s0 s : Sys α κ W}
variable {abs : Bool} {h : History α κ W} {pc : PC α}

/-! ## C11 -/

/-- C11: in every state of a run the run-level counter of `n` is the number of sets with
`n` selected so far in this run (the yielded ones and the one being chosen, `cur`). -/
theorem C11_run_count (hr : Reach E a s0 abs h s pc)
    (hE : Keeps E (fun s => Dict.get? s.countsTotal a.id)) :
    ∃ f cur, Dict.get? s.countsTotal a.id = some f ∧
      ((∃ e, pc = .raised e) ∨ (∃ c, pc = .choosing c ∧ cur = c.exec) ∨ cur = []) ∧
      selections h = (yields h).flatten ++ cur ∧
      (∀ n, f .environment_state_update n = setsWith n (yields h) + cur.count n) ∧
      ∀ n, f .environment_state_update n = (selections h).count n := by
  obtain ⟨s1, hs1, _, _⟩ : ∃ s1, s0.start a = (s1, .ok abs) ∧ True ∧ True := by
    refine hr.ind (P := fun _ _ _ => ∃ s1, s0.start a = (s1, .ok abs) ∧ True ∧ True) ?_ ?_ ?_
    · intro s hs; exact ⟨s, hs, trivial, trivial⟩
    · intros; assumption
    · intros; assumption
  obtain ⟨f0, hf0, _⟩ := (Sys.start_ok hs1).total
  obtain ⟨f, hf, ci⟩ := hr.counts hE hs1 hf0
  obtain ⟨cur, hp, hsel⟩ := hr.pending
  refine ⟨f, cur, hf, ?_, hsel, ?_, ci.run⟩
  · cases pc with
    | raised e => exact .inl ⟨e, rfl⟩
    | choosing c => exact .inr (.inl ⟨c, rfl, hp⟩)
    | _ => exact .inr (.inr hp)
  · intro n
    rw [ci.run, hsel, List.count_append, count_flatten_sets hr.yields_nodup]

/-- C11: in every state of a run the pass-level counter of `n` is 1 or 0 according to
whether `n` was selected in the current pass (the consideration sets being disjoint). -/
theorem C11_pass_count (hr : Reach E a s0 abs h s pc)
    (hE : Keeps E (fun s => Dict.get? s.countsTotal a.id))
    (hEq : Keeps E (fun s => s.queue)) (hq : s0.queue.flatten.Nodup) :
    ∃ f, Dict.get? s.countsTotal a.id = some f ∧
      ∀ n, f .pass n = if n ∈ selections (currentPass h) then 1 else 0 := by
  obtain ⟨s1, hs1⟩ : ∃ s1, s0.start a = (s1, .ok abs) := by
    refine hr.ind (P := fun _ _ _ => ∃ s1, s0.start a = (s1, .ok abs)) ?_ ?_ ?_
    · intro s hs; exact ⟨s, hs⟩
    · intros; assumption
    · intros; assumption
  obtain ⟨f0, hf0, _⟩ := (Sys.start_ok hs1).total
  obtain ⟨f, hf, ci⟩ := hr.counts hE hs1 hf0
  refine ⟨f, hf, fun n => ?_⟩
  rw [ci.pass]
  have hnd := PassNodup.nodup hr hEq hq
  split
  · rename_i hn
    exact Nat.le_antisymm (List.nodup_iff_count.1 hnd n) (List.count_pos_iff.2 hn)
  · rename_i hn; exact List.count_eq_zero.2 hn

/-- C11 in one run: the life-time counter grows by the number of selections in this
run. (`C11_life_count` is the statement for any number of runs.) -/
theorem C11_life_count_one_run (hr : Reach E a s0 abs h s pc)
    (hE : Keeps E (fun s => Dict.get? s.countsTotal a.id)) {f0}
    (hf0 : Dict.get? s0.countsTotal a.id = some f0) :
    ∃ f, Dict.get? s.countsTotal a.id = some f ∧
      ∀ n, f .life n = f0 .life n + (selections h).count n := by
  obtain ⟨s1, hs1⟩ : ∃ s1, s0.start a = (s1, .ok abs) := by
    refine hr.ind (P := fun _ _ _ => ∃ s1, s0.start a = (s1, .ok abs)) ?_ ?_ ?_
    · intro s hs; exact ⟨s, hs⟩
    · intros; assumption
    · intros; assumption
  obtain ⟨f1, hf1, _, hx, _⟩ := (Sys.start_ok hs1).total
  obtain ⟨f, hf, ci⟩ := hr.counts hE hs1 hf1
  refine ⟨f, hf, fun n => ?_⟩
  rw [ci.coarse .life n (by decide), hx f0 hf0 .life n (by decide)]

example : demo.queue.flatten.Nodup ∧ selections (demoAfter 40).1 = [0, 1, 0, 1, 2] ∧
    selections (currentPass (demoAfter 40).1) = [0, 1, 2] := by
  refine ⟨by decide, by decide +kernel, by decide +kernel⟩

/-! ## C12, C13 -/

/-- C12: `EveryNCalls(d, n)` owned by another node `b` is satisfied exactly when `d` was
selected at least `n` times since the last selection of `b` in this run (since the start
of the run if there is none). -/
theorem C12_every_n_calls (hr : Reach E a s0 abs h s pc)
    (hE : Keeps E (fun s => Dict.get? s.countsUseable a.id)) {b d : α} (hbd : d ≠ b)
    (hb : b ∈ s.nodes) (hd : d ∈ s.nodes) {o : OId} (ho : s.store.owner o = some b) (n : Int) :
    ∃ r, Evaluates s a.id (.leaf o (.everyNCalls d n)) r ∧
      (r = true ↔ n ≤ ((since b (selections h)).count d : Int)) := by
  obtain ⟨u, hu, ui⟩ := hr.useable hE
  refine ⟨decide (n ≤ ((since b (selections h)).count d : Int)), ?_, by simp⟩
  unfold Evaluates
  have e : u d b = (since b (selections h)).count d := ui.diff d b hbd
  have hu' : s.toView.useable a.id d (some b) = .ok (u d b) := by
    unfold View.useable
    rw [hu]; simp only [hd, hb, if_true]
  simp only [eval, evalLeaf, ho, hu', e, ge_iff_le]

example : ∃ e ∈ (demoAfter 40).1, e.ev = Event.add 2 ∧ e.before.store.owner 0 = some 2 ∧
    2 ∈ e.before.nodes ∧ 0 ∈ e.before.nodes := by
  have h : ((demoAfter 40).1.any fun e => decide (e.ev = Event.add 2 ∧
      e.before.store.owner 0 = some 2 ∧ 2 ∈ e.before.nodes ∧ 0 ∈ e.before.nodes)) = true := by
    decide +kernel
  obtain ⟨e, he, hev⟩ := List.any_eq_true.1 h
  exact ⟨e, he, by simpa using hev⟩

/-- Whenever `b` is selected, its condition is `EveryNCalls(d, n)` (owned by `b`). -/
def GovernedBy (h : History α κ W) (b d : α) (n : Nat) : Prop :=
  ∀ e ∈ h, e.ev = .add b → ∃ o, Dict.get? e.before.conds b = some (.leaf o (.everyNCalls d n)) ∧
    e.before.store.owner o = some b

theorem every_n_at_add (hr : Reach E a s0 abs h s pc)
    (hE : Keeps E (fun s => Dict.get? s.countsUseable a.id)) {b d : α} (hbd : d ≠ b) {n : Nat}
    (hg : GovernedBy h b d n) {h1 h2 : History α κ W} {e : Entry α κ W} (hh : h = h1 ++ e :: h2)
    (he : e.ev = .add b) : n ≤ (since b (selections h1)).count d := by
  obtain ⟨p, p', hr1, hs, _⟩ := hr.entry h1 e h2 hh
  obtain ⟨o, ho1, ho2⟩ := hg e (by rw [hh]; simp) he
  obtain ⟨u, hu, ui⟩ := hr1.useable hE
  have hst := Sys.step_stepR hs
  generalize hev : some e.ev = ev at hst
  generalize e.after = sa at hst
  cases hst with
  | @add c m ns cond st f u' ht hm hc hev' hf hu' hmn =>
    injection hev with hev
    rw [he] at hev; cases hev
    rw [hc] at ho1; injection ho1 with ho1; subst ho1
    simp only [eval, evalLeaf, ho2, View.useable, hu] at hev'
    by_cases hd : d ∈ e.before.nodes
    · rw [if_pos hd] at hev'
      simp only [hmn, if_true, Prod.mk.injEq, Except.ok.injEq, decide_eq_true_eq] at hev'
      rw [ui.diff d b hbd] at hev'
      omega
    · rw [if_neg hd] at hev'; simp at hev'
  | fails _ _ hx =>
    rcases hx with rfl | ⟨_, rfl, _⟩
    · cases hev
    · injection hev with hev; rw [he] at hev; cases hev
  | _ => first | cases hev | (injection hev with hev; rw [he] at hev; cases hev)

theorem every_n_prefix (hr : Reach E a s0 abs h s pc)
    (hE : Keeps E (fun s => Dict.get? s.countsUseable a.id)) {b d : α} (hbd : d ≠ b) {n : Nat}
    (hg : GovernedBy h b d n) :
    n * (selections h).count b + (since b (selections h)).count d ≤ (selections h).count d := by
  have key : ∀ h1 h2, h = h1 ++ h2 → n * (selections h1).count b +
      (since b (selections h1)).count d ≤ (selections h1).count d := by
    intro h1
    induction h1 using snocInd with
    | h0 => intro h2 _; simp [selections_nil, since, afterLast]
    | h1 h1 e ih =>
      intro h2 hh
      have ih := ih (e :: h2) (by rw [hh]; simp)
      rw [selections_snoc]
      cases hadd : e.ev.add? with
      | none => simpa [hadd] using ih
      | some x =>
        have hx : e.ev = .add x := by
          cases hev : e.ev <;> rw [hev] at hadd <;> simp [Event.add?] at hadd
          rw [hadd]
        simp only [Option.toList_some]
        rw [since_snoc, List.count_append, List.count_append, List.count_singleton,
          List.count_singleton]
        by_cases hxb : x = b
        · subst hxb
          have := every_n_at_add hr hE hbd hg (h1 := h1) (h2 := h2) (e := e) (by rw [hh]; simp) hx
          have hne : ¬ x = d := fun e => hbd e.symm
          simp only [if_true, List.count_nil, beq_self_eq_true, beq_iff_eq, hne, if_false,
            Nat.mul_add, Nat.mul_one]
          omega
        · simp only [hxb, if_false, beq_iff_eq, List.count_append, List.count_singleton]
          by_cases hxd : x = d
          · simp [hxd]; omega
          · simp [hxd]; omega
  exact key h [] (by simp)

/-- C13: in every prefix of the sets yielded by a run, `d` appears at least `n` times as
often as a node `b` governed by `EveryNCalls(d, n)`. -/
theorem C13_rate (hr : Reach E a s0 abs h s pc)
    (hE : Keeps E (fun s => Dict.get? s.countsUseable a.id)) {b d : α} (hbd : d ≠ b) {n : Nat}
    (hg : GovernedBy h b d n) {l1 l2 : List (List α)} (hy : yields h = l1 ++ l2) :
    n * setsWith b l1 ≤ setsWith d l1 := by
  rcases List.eq_nil_or_concat l1 with rfl | ⟨l, x, rfl⟩
  · simp [setsWith]
  · rw [List.concat_eq_append] at hy ⊢
    obtain ⟨h1, e, h2, hh, hy1, he, _, hsel⟩ := hr.yieldEntry (l1 := l) (x := x) (l2 := l2)
      (by rw [hy]; simp)
    obtain ⟨p, p', _, _, hr'⟩ := hr.entry h1 e h2 hh
    have hg' : GovernedBy (h1 ++ [e]) b d n := fun x hx hxe => hg x (by
      rw [hh]; simp at hx ⊢; rcases hx with hx | hx <;> simp [hx]) hxe
    have := every_n_prefix hr' hE hbd hg'
    rw [hsel] at this
    have hnd : ∀ y ∈ l ++ [x], y.Nodup := fun y hy' => hr.yields_nodup y (by
      rw [hy]; exact List.mem_append_left _ hy')
    rw [count_flatten_sets hnd, count_flatten_sets hnd] at this
    omega

/-- C13: between two consecutive selections of `b` (or the start of the run and the first
one) `d` is selected at least `n` times. -/
theorem C13_between (hr : Reach E a s0 abs h s pc)
    (hE : Keeps E (fun s => Dict.get? s.countsUseable a.id)) {b d : α} (hbd : d ≠ b) {n : Nat}
    (hg : GovernedBy h b d n) {l1 l2 l3 : List α}
    (hsel : selections h = l1 ++ l2 ++ b :: l3) (hl1 : l1 = [] ∨ ∃ l, l1 = l ++ [b])
    (_hl2 : b ∉ l2) : n ≤ l2.count d := by
  unfold selections at hsel
  obtain ⟨h1, h', rfl, hh1, hh'⟩ := List.filterMap_eq_append_iff.1 hsel
  obtain ⟨k1, e, k2, rfl, hk1, he, hk2⟩ := List.filterMap_eq_cons_iff.1 hh'
  have hx : e.ev = .add b := by
    cases hev : e.ev <;> rw [hev] at he <;> simp [Event.add?] at he
    rw [he]
  have := every_n_at_add hr hE hbd hg (h1 := h1 ++ k1) (h2 := k2) (e := e) (by simp) hx
  have hs : selections (h1 ++ k1) = l1 ++ l2 := by
    unfold selections
    rw [List.filterMap_append, hh1]
    have : k1.filterMap (fun e => e.ev.add?) = [] := by
      rw [List.filterMap_eq_nil_iff]; exact hk1
    rw [this, List.append_nil]
  rw [hs] at this
  have hsi : since b (l1 ++ l2) = l2 := by
    unfold since
    have hno : ∀ x ∈ l2, (fun x => decide (x = b)) x = false := by
      intro x hx'; simp; rintro rfl; exact _hl2 hx'
    rw [afterLast_append_of_none _ _ _ hno]
    rcases hl1 with rfl | ⟨l, rfl⟩
    · simp [afterLast_nil]
    · rw [afterLast_snoc]; simp
  rw [hsi] at this
  exact this

/-- C13, for yielded sets: at least `n` sets containing `d` lie between two consecutive
sets `x`, `y` containing `b` (counting `y` if `d` is in it), provided `d` is not in
`x`. -/
theorem C13_between_sets (hr : Reach E a s0 abs h s pc)
    (hE : Keeps E (fun s => Dict.get? s.countsUseable a.id)) {b d : α} (hbd : d ≠ b) {n : Nat}
    (hg : GovernedBy h b d n) {l1 l2 l3 : List (List α)} {x y : List α}
    (hy : yields h = l1 ++ x :: l2 ++ y :: l3) (hbx : b ∈ x) (hby : b ∈ y) (hdx : d ∉ x)
    (hl2 : ∀ z ∈ l2, b ∉ z) : n ≤ setsWith d (l2 ++ [y]) := by
  have hnd := hr.yields_nodup
  obtain ⟨cur, _, hsel⟩ := hr.pending
  obtain ⟨x1, x2, hx⟩ := List.append_of_mem hbx
  obtain ⟨y1, y2, hyy⟩ := List.append_of_mem hby
  have hnx : x.Nodup := hnd x (by rw [hy]; simp)
  have hny : y.Nodup := hnd y (by rw [hy]; simp)
  rw [hx, List.nodup_append] at hnx
  rw [hyy, List.nodup_append] at hny
  have hx2 : b ∉ x2 := (List.nodup_cons.1 hnx.2.1).1
  have hy1 : b ∉ y1 := fun hb => hny.2.2 b hb b (by simp) rfl
  have := C13_between hr hE hbd hg (l1 := l1.flatten ++ x1 ++ [b]) (l2 := x2 ++ l2.flatten ++ y1)
    (l3 := y2 ++ l3.flatten ++ cur)
    (by rw [hsel, hy, hx, hyy]; simp) (.inr ⟨_, rfl⟩) (by
      simp only [List.mem_append, not_or]
      refine ⟨⟨hx2, ?_⟩, hy1⟩
      intro hb
      obtain ⟨z, hz, hbz⟩ := List.mem_flatten.1 hb
      exact hl2 z hz hbz)
  have hl2n : ∀ z ∈ l2, z.Nodup := fun z hz => hnd z (by rw [hy]; simp [hz])
  rw [List.count_append, List.count_append, count_flatten_sets hl2n] at this
  have e1 : x2.count d = 0 := List.count_eq_zero.2 (fun hd => hdx (by rw [hx]; simp [hd]))
  have e2 : setsWith d (l2 ++ [y]) = setsWith d l2 + if d ∈ y then 1 else 0 := by
    unfold setsWith
    rw [List.countP_append, List.countP_singleton]
    by_cases hdy : d ∈ y <;> simp [hdy]
  have e3 : y1.count d ≤ if d ∈ y then 1 else 0 := by
    split
    · exact List.nodup_iff_count.1 hny.1 d
    · rename_i hd
      exact Nat.le_of_eq (List.count_eq_zero.2 (fun h => hd (by rw [hyy]; simp [h])))
  omega

/-- Sufficient for `GovernedBy`: the condition was given before the run and is not
replaced during it. -/
theorem governedBy_of_start (hr : Reach E a s0 abs h s pc) (hE : Keeps E (fun s => s.conds))
    (hE2 : Keeps E (fun s => s.store.owner)) (hE3 : ∀ s s', E s s' → s.store.fresh ≤ s'.store.fresh)
    {b d : α} {n : Nat} {o : OId} (hc : Dict.get? s0.conds b = some (.leaf o (.everyNCalls d n)))
    (ho : s0.store.owner o = some b) (hof : o < s0.store.fresh) : GovernedBy h b d n := by
  intro e he hev
  obtain ⟨h1, h2, hh⟩ := mem_split he
  obtain ⟨p, p', hr1, _, _⟩ := hr.entry h1 e h2 hh
  obtain ⟨s1, hs1, hc1, ho1, _⟩ := hr1.conds_start hE hE2 hE3
  obtain ⟨x1, x2, _, _⟩ := (Sys.start_ok hs1).conds_spec
  refine ⟨o, ?_, ?_⟩
  · rw [hc1]; exact x2 b _ hc
  · rw [ho1, x1.owner o hof]; exact ho

example : GovernedBy (demoAfter 40).1 2 0 2 ∧ setsWith 2 (yields (demoAfter 40).1) = 1 ∧
    setsWith 0 (yields (demoAfter 40).1) = 2 := by
  refine ⟨governedBy_of_start (demo_reach (fun _ _ => False) 40) (fun _ _ h => h.elim)
    (fun _ _ h => h.elim) (fun _ _ h => h.elim) (o := 0) rfl rfl (by decide), ?_, ?_⟩ <;>
  · rw [demo_run.1]; decide

/-! ## C10 -/

/-- C10: in every state of a run, the condition of a node without an explicit condition
is satisfied if and only if every sender has been selected in this run since the node's
own last selection. -/
theorem C10_default_condition (hr : Reach E a s0 abs h s pc)
    (hE : Keeps E (fun s => s.conds)) (hE2 : Keeps E (fun s => s.store.owner))
    (hE3 : ∀ s s', E s s' → s.store.fresh ≤ s'.store.fresh)
    (hEn : Keeps E (fun s => s.nodes))
    (hEu : Keeps E (fun s => Dict.get? s.countsUseable a.id))
    {n : α} {deps : List α} (hn : n ∈ s0.nodes) (hc : Dict.get? s0.conds n = none)
    (hg : Dict.get? s0.graph n = some deps) (hd : ∀ d ∈ deps, d ∈ s0.nodes ∧ d ≠ n) (b : Bool) :
    NodeCond s a.id n b ↔ (b = true ↔ ∀ d ∈ deps, d ∈ since n (selections h)) := by
  obtain ⟨s1, hs1, hc1, ho1, hf1⟩ := hr.conds_start hE hE2 hE3
  obtain ⟨_, _, x3, _⟩ := (Sys.start_ok hs1).conds_spec
  obtain ⟨deps', c, e1, e2, e3⟩ := x3 n hn hc
  rw [hg] at e1; injection e1 with e1; subst e1
  obtain ⟨u, hu, ui⟩ := hr.useable hEu
  have hnodes : s.nodes = s0.nodes := hr.keepNodes hEn
  have hdef : IsDefault s.store n deps c := by
    obtain ⟨o, k1, k2, k3, k4⟩ := e3.ex
    exact ⟨o, k1, Nat.le_trans k2 hf1, fun d hd => by rw [ho1]; exact k3 d hd,
      fun hl x y1 y2 => by rw [ho1]; exact k4 hl x y1 y2⟩
  have hev := hdef.eval (v := s.toView) (id := a.id) hu (by rw [hnodes]; exact hn)
    (fun d hdd => by rw [hnodes]; exact (hd d hdd).1)
  have hiff : (∀ d ∈ deps, 1 ≤ u d n) ↔ ∀ d ∈ deps, d ∈ since n (selections h) := by
    constructor
    · intro hx d hdd
      have := hx d hdd
      rw [ui.diff d n (hd d hdd).2] at this
      exact List.count_pos_iff.1 this
    · intro hx d hdd
      rw [ui.diff d n (hd d hdd).2]
      exact List.count_pos_iff.2 (hx d hdd)
  have hcs : Dict.get? s.conds n = some c := by rw [hc1]; exact e2
  constructor
  · rintro ⟨c', h1, h2⟩
    rw [hcs] at h1; injection h1 with h1; subst h1
    unfold Evaluates at h2
    rw [hev] at h2
    simp only [Except.ok.injEq] at h2
    rw [← h2, decide_eq_true_eq, hiff]
  · intro h1
    refine ⟨c, hcs, ?_⟩
    unfold Evaluates
    rw [hev]
    simp only [Except.ok.injEq]
    cases b with
    | true => simp only [decide_eq_true_eq]; rw [hiff]; exact h1.1 rfl
    | false =>
      simp only [decide_eq_false_iff_not]; rw [hiff]
      intro hx; exact absurd (h1.2 hx) (by simp)

/-- C10, for the sets: when a set is complete, a considered node without an explicit
condition is in it or some sender has not executed since; and if it is in it, then every
sender had executed since the node's last execution when it was added. -/
theorem C10_executed_iff (hr : Reach E a s0 abs h s pc)
    (hE : Keeps E (fun s => s.conds)) (hE2 : Keeps E (fun s => s.store.owner))
    (hE3 : ∀ s s', E s s' → s.store.fresh ≤ s'.store.fresh)
    (hEn : Keeps E (fun s => s.nodes))
    (hEu : Keeps E (fun s => Dict.get? s.countsUseable a.id))
    {n : α} {deps : List α} (hn : n ∈ s0.nodes) (hc : Dict.get? s0.conds n = none)
    (hg : Dict.get? s0.graph n = some deps) (hd : ∀ d ∈ deps, d ∈ s0.nodes ∧ d ≠ n)
    {h1 h2 : History α κ W} {e : Entry α κ W} (hh : h = h1 ++ e :: h2) {i : Nat} {set : List α}
    {shown : Bool} (he : e.ev = .layer i set shown) (hat : At e.before.queue i n) :
    (n ∉ set → ∃ d ∈ deps, d ∉ since n (selections h1)) ∧
    (n ∈ set → ∃ l r, set = l ++ n :: r ∧ ∃ l0, selections h1 = l0 ++ set ∧
      ∀ d ∈ deps, d ∈ since n (l0 ++ l)) := by
  obtain ⟨p, p', hr1, _, _⟩ := hr.entry h1 e h2 hh
  have hiff := fun b => C10_default_condition hr1 hE hE2 hE3 hEn hEu hn hc hg hd b
  constructor
  · intro hns
    obtain ⟨layer, hl, hmax⟩ := C08_maximal hr hh he
    obtain ⟨l, hl', hnl⟩ := hat
    rw [hl] at hl'; injection hl' with hl'; subst hl'
    obtain ⟨cond, st, k1, k2, k3, k4⟩ := hmax n hnl hns
    obtain ⟨s1, hs1, hc1, _, _⟩ := hr1.conds_start hE hE2 hE3
    obtain ⟨_, _, x3, _⟩ := (Sys.start_ok hs1).conds_spec
    obtain ⟨deps', c, e1, e2, e3⟩ := x3 n hn hc
    have : cond = c := by rw [hc1, e2] at k1; injection k1 with k1; exact k1.symm
    subst this
    have hfalse : NodeCond e.before a.id n false := C08_maximal_stateless hr hh he
      ⟨layer, hl, hnl⟩ hns k1 e3.stateless
    have := (hiff false).1 hfalse
    apply Classical.byContradiction
    intro hx
    have hall : ∀ d ∈ deps, d ∈ since n (selections h1) := by
      intro d hdd
      apply Classical.byContradiction
      intro h'; exact hx ⟨d, hdd, h'⟩
    exact absurd (this.2 hall) (by simp)
  · intro hns
    obtain ⟨es, ⟨c0, pre, layer, hc0, hpre⟩, hes, hsat⟩ := C07_sound hr hh he
    obtain ⟨l, r, hlr⟩ := List.append_of_mem hns
    refine ⟨l, r, hlr, selections pre, ?_, ?_⟩
    · rw [hpre]
      have e1 : selections (pre ++ c0 :: es) = selections pre ++ selections [c0] ++ selections es := by
        rw [List.append_assoc, ← selections_append, ← selections_append]; rfl
      have e2 : selections [c0] = [] := by rw [selections_single, hc0]; rfl
      have e3 : selections es = set := by
        clear hsat hpre
        induction es generalizing set with
        | nil => cases set <;> simp at hes; rfl
        | cons x es ih =>
          cases set with
          | nil => simp at hes
          | cons y set =>
            simp only [List.map_cons, List.cons.injEq] at hes
            have := selections_append [x] es
            rw [List.singleton_append] at this
            rw [this, selections_single, hes.1]
            show y :: selections es = _
            congr 1
            have : ∀ (es : History α κ W) (set : List α),
                es.map (fun x => x.ev) = set.map Event.add → selections es = set := by
              intro es
              induction es with
              | nil => intro set h; cases set <;> simp at h; rfl
              | cons x es ih =>
                intro set h
                cases set with
                | nil => simp at h
                | cons y set =>
                  simp only [List.map_cons, List.cons.injEq] at h
                  have h2 := selections_append [x] es
                  rw [List.singleton_append] at h2
                  rw [h2, selections_single, h.1, ih set h.2]; rfl
            exact this es set hes.2
      rw [e1, e2, e3, List.append_nil]
    · -- the entry that added `n`
      have hes' : es.map (fun x => x.ev) = l.map Event.add ++ Event.add n :: r.map Event.add := by
        rw [hes, hlr]; simp
      obtain ⟨es1, es', rfl, h1e, h2e⟩ := List.map_eq_append_iff.1 hes'
      obtain ⟨x, es2, rfl, hx, _⟩ := List.map_eq_cons_iff.1 h2e
      have htrue := hsat x (by simp) n hx
      have hsplit : h = (pre ++ c0 :: es1) ++ x :: (es2 ++ e :: h2) := by
        rw [hh, hpre]; simp
      obtain ⟨q, q', hrx, _, _⟩ := hr.entry _ _ _ hsplit
      have := (C10_default_condition hrx hE hE2 hE3 hEn hEu hn hc hg hd true).1 htrue
      have hsel : selections (pre ++ c0 :: es1) = selections pre ++ l := by
        have e1 : selections (pre ++ c0 :: es1) =
            selections pre ++ selections [c0] ++ selections es1 := by
          rw [List.append_assoc, ← selections_append, ← selections_append]; rfl
        have e2 : selections [c0] = [] := by rw [selections_single, hc0]; rfl
        have e3 : ∀ (es : History α κ W) (set : List α),
            es.map (fun x => x.ev) = set.map Event.add → selections es = set := by
          intro es
          induction es with
          | nil => intro set h; cases set <;> simp at h; rfl
          | cons x es ih =>
            intro set h
            cases set with
            | nil => simp at h
            | cons y set =>
              simp only [List.map_cons, List.cons.injEq] at h
              have h2 := selections_append [x] es
              rw [List.singleton_append] at h2
              rw [h2, selections_single, h.1, ih set h.2]; rfl
        rw [e1, e2, List.append_nil, e3 es1 l h1e]
      rw [← hsel]
      exact this.1 rfl

example : Dict.get? demo.conds 1 = none ∧ Dict.get? demo.graph 1 = some [0] ∧ 1 ∈ demo.nodes ∧
    0 ∈ demo.nodes := by decide

/-! ## C15 -/

/-- `AllHaveRun()` over the run. -/
theorem allHaveRun_eval {v : View α κ W} {id : Option κ} {f} (o : OId) (st : Store α κ)
    (hf : Dict.get? v.countsTotal id = some f) :
    eval v id (.leaf o (.allHaveRun [] .environment_state_update)) st =
      (.ok (decide (∀ n ∈ v.nodes, 1 ≤ f .environment_state_update n)), st) := by
  have key : ∀ l : List α, (∀ n ∈ l, n ∈ v.nodes) →
      allHaveRunFunc v id .environment_state_update l =
        .ok (decide (∀ n ∈ l, 1 ≤ f .environment_state_update n)) := by
    intro l
    induction l with
    | nil => intro _; simp [allHaveRunFunc]
    | cons x l ih =>
      intro hl
      have hx : x ∈ v.nodes := hl x (by simp)
      unfold allHaveRunFunc
      have : v.total id .environment_state_update x = .ok (f .environment_state_update x) := by
        unfold View.total; rw [hf]; simp only [hx, if_true]
      rw [this]
      simp only
      by_cases h1 : f .environment_state_update x < 1
      · rw [if_pos h1]
        congr 1
        symm; simp only [decide_eq_false_iff_not]
        intro hall; have := hall x (by simp); omega
      · rw [if_neg h1, ih (fun n hn => hl n (by simp [hn]))]
        congr 2
        apply propext
        constructor
        · intro hall n hn
          rcases List.mem_cons.1 hn with rfl | hn
          · omega
          · exact hall n hn
        · intro hall n hn; exact hall n (by simp [hn])
  simp only [eval, evalLeaf, if_true]
  rw [key v.nodes (fun _ h => h)]

/-- The default termination conditions (scheduler.py:342-345). -/
def DefaultTermination (a : RunArgs α κ W) : Prop :=
  ∃ o o', a.esu = .leaf o (.allHaveRun [] .environment_state_update) ∧ a.seq = .leaf o' .never

theorem mem_selections_yields {l : List (List α)} {n : α} : n ∈ l.flatten ↔ ∃ x ∈ l, n ∈ x := by
  simp [List.mem_flatten]

/-- C15: when a run with the default termination conditions has returned, every node is
in one of the sets it yielded. -/
theorem C15_all_have_run (ha : DefaultTermination a) (hr : Reach E a s0 abs h s .returned)
    (hE : Keeps E (fun s => Dict.get? s.countsTotal a.id)) (hEn : Keeps E (fun s => s.nodes)) :
    ∀ n ∈ s0.nodes, ∃ set ∈ yields h, n ∈ set := by
  obtain ⟨o, o', he1, he2⟩ := ha
  obtain ⟨h', e, rfl, hev, hfin⟩ := C14_returns_only_when_finished hr
  obtain ⟨p, p', hr1, hs, _⟩ := hr.entry h' e [] rfl
  obtain ⟨f, cur, hf, hcur, hsel, hcount, _⟩ := C11_run_count hr1 hE
  have hp : p = .outer := by
    have hst := Sys.step_stepR hs
    generalize hx : some e.ev = ev at hst
    generalize e.after = sa at hst
    cases hst with
    | pass => rfl
    | stopSkip => rfl
    | stopIncr => rfl
    | fails _ _ hx' =>
      rcases hx' with rfl | ⟨h, _, _⟩
      · cases hx
      · exact h
    | _ => first | cases hx | (injection hx with hx; rw [hev] at hx; cases hx)
  subst hp
  have hcur0 : cur = [] := by
    rcases hcur with ⟨_, h⟩ | ⟨_, h, _⟩ | h
    · cases h
    · cases h
    · exact h
  have hnodes : e.before.nodes = s0.nodes := hr1.keepNodes hEn
  intro n hn
  have hall : ∀ n ∈ e.before.nodes, 1 ≤ f .environment_state_update n := by
    rcases hfin with hfin | ⟨st, h1, h2⟩
    · rw [he1, allHaveRun_eval o _ hf] at hfin
      simpa using hfin
    · rw [he2] at h2; simp [eval, evalLeaf] at h2
  have hn1 := hall n (by rw [hnodes]; exact hn)
  rw [hcount, hcur0] at hn1
  have hpos : 0 < setsWith n (yields h') := by simp at hn1; omega
  unfold setsWith at hpos
  obtain ⟨set, hset, hmem⟩ := List.countP_pos_iff.1 hpos
  refine ⟨set, ?_, by simpa using hmem⟩
  rw [yields_append]; exact List.mem_append_left _ hset

/-- C15: before the last yielded set, some node had not been executed: no proper prefix
of the yielded sets covers all nodes. -/
theorem C15_no_proper_prefix (ha : DefaultTermination a) (hr : Reach E a s0 abs h s pc)
    (hE : Keeps E (fun s => Dict.get? s.countsTotal a.id)) (hEn : Keeps E (fun s => s.nodes))
    {l1 l2 : List (List α)} {x : List α} (hy : yields h = l1 ++ x :: l2) :
    ∃ n ∈ s0.nodes, ∀ set ∈ l1, n ∉ set := by
  obtain ⟨o, o', he1, he2⟩ := ha
  -- at the beginning of a choice or pass, some node has not run
  have key : ∀ h1 e h2, h = h1 ++ e :: h2 →
      ((∃ i layer, e.ev = .consider i layer) ∨ e.ev = .passStart) →
      ∃ n ∈ s0.nodes, n ∉ selections h1 := by
    intro h1 e h2 hh hev
    obtain ⟨p, p', hr1, hs, _⟩ := hr.entry h1 e h2 hh
    obtain ⟨f, cur, hf, _, _, _, hcount⟩ := C11_run_count hr1 hE
    obtain ⟨st, hu, _⟩ := C14_never_starts_when_finished hr (e := e) (by rw [hh]; simp) hev
    rw [he1, allHaveRun_eval o _ hf] at hu
    simp only [Prod.mk.injEq, Except.ok.injEq, decide_eq_false_iff_not] at hu
    have hnodes : e.before.nodes = s0.nodes := hr1.keepNodes hEn
    apply Classical.byContradiction
    intro hno
    apply hu.1
    intro n hn
    rw [hcount]
    apply List.count_pos_iff.2
    apply Classical.byContradiction
    intro hns
    exact hno ⟨n, by rw [← hnodes]; exact hn, hns⟩
  obtain ⟨h1, e, h2, hh, hy1, he, _, _⟩ := hr.yieldEntry hy
  cases hev : e.ev with
  | layer i set shown =>
    obtain ⟨c0, pre, es, layer, hpre, hc0, hes, _⟩ := C14_yielded_sets hr hh hev
    obtain ⟨n, hn, hns⟩ := key pre c0 (es ++ e :: h2) (by rw [hh, hpre]; simp) (.inl ⟨i, layer, hc0⟩)
    refine ⟨n, hn, ?_⟩
    intro set hset hmem
    apply hns
    have hyp : yields pre = l1 := by
      have e1 : yields (pre ++ c0 :: es) = yields pre ++ yields [c0] ++ yields es := by
        rw [List.append_assoc, ← yields_append, ← yields_append]; rfl
      have e2 : yields [c0] = [] := by rw [yields_single, hc0]; rfl
      have e3 : yields es = [] := by
        unfold yields
        rw [List.filterMap_eq_nil_iff]
        intro y hy'
        obtain ⟨m, hm⟩ := hes y hy'
        rw [hm]; rfl
      rw [← hy1, hpre, e1, e2, e3]; simp
    obtain ⟨sp, pp, hrp⟩ := hr.prefix (h1 := pre) (h2 := c0 :: (es ++ e :: h2))
      (by rw [hh, hpre]; simp)
    obtain ⟨cur, _, hselp⟩ := hrp.pending
    rw [hselp, hyp]
    exact List.mem_append_left _ (List.mem_flatten.2 ⟨set, hset, hmem⟩)
  | emptyPass =>
    -- nothing was selected since the pass started
    obtain ⟨p, p', hr1, hs, hr2⟩ := hr.entry h1 e h2 hh
    have hp : p' = .yieldedEmpty ∧ abs = false := by
      have hst := Sys.step_stepR hs
      generalize hx : some e.ev = ev at hst
      generalize e.after = sa at hst
      cases hst with
      | @emptyYield _ _ _ _ ha _ => exact ⟨rfl, by simpa using ha⟩
      | fails _ _ hx' =>
        rcases hx' with rfl | ⟨_, rfl, _⟩
        · cases hx
        · injection hx with hx; rw [hev] at hx; cases hx
      | _ => first | cases hx | (injection hx with hx; rw [hev] at hx; cases hx)
    obtain ⟨rfl, rfl⟩ := hp
    have hps := hr2.passSets
    have hps' : selections (currentPass (h1 ++ [e])) = [] ∧
        yields (currentPass (h1 ++ [e])) = [[]] := hps
    rw [currentPass_snoc, if_neg (by rw [hev]; simp), selections_append, yields_append,
      selections_single, yields_single, hev] at hps'
    have hsel0 : selections (currentPass h1) = [] := by simpa [Event.add?] using hps'.1
    have hy0 : yields (currentPass h1) = [] := by simpa [Event.yield?] using hps'.2
    obtain ⟨pre, hpre, hor, _⟩ := afterLast_split isPassStart h1
    rcases hor with rfl | ⟨pre', x0, rfl, hx0⟩
    · -- no pass has begun: impossible, but then nothing was yielded either
      have : l1 = [] := by
        rw [← hy1]
        have : h1 = currentPass h1 := by simpa [currentPass] using hpre
        rw [this]; exact hy0
      subst this
      have hcp : h1 = currentPass h1 := by simpa [currentPass] using hpre
      have hno : ∀ x ∈ h1, isPassStart x = false := by
        intro x hx
        obtain ⟨pre, h1', _, h3⟩ := afterLast_split isPassStart h1
        exact h3 x (by rw [hcp] at hx; exact hx)
      -- the first entry of a history is a pass start or a stop
      exfalso
      have hk := hr1.ind (P := fun h s pc => (h = [] → pc = .outer ∨ ∃ e, pc = .raised e) ∧
          (∀ x t, h = x :: t → x.ev = .passStart ∨ (x.ev = .stop)) ∧
          (∀ x t, h = x :: t → x.ev = .stop → t = [] ∧ pc.final = true))
        (by intro s _; exact ⟨fun _ => .inl rfl, by simp, by simp⟩)
        (by
          intro h s s' pc pc' ev _ ih hst
          obtain ⟨i1, i2, i3⟩ := ih
          cases h with
          | nil =>
            rcases i1 rfl with rfl | ⟨e, rfl⟩
            · cases hst with
              | pass => exact ⟨by simp, by simp, by simp⟩
              | stopSkip => exact ⟨by simp, by simp, by simp [PC.final]⟩
              | stopIncr => exact ⟨by simp, by simp, by simp [PC.final]⟩
              | fails hp hfr hx =>
                rcases hx with rfl | ⟨_, rfl, _⟩
                · exact ⟨fun _ => .inr ⟨_, rfl⟩, by simp, by simp⟩
                · exact ⟨by simp, by simp, by simp [PC.final]⟩
            · cases hst with
              | raised => exact ⟨fun _ => .inr ⟨_, rfl⟩, by simp, by simp⟩
              | fails hp => simp [PC.final] at hp
          | cons y t =>
            refine ⟨?_, ?_, ?_⟩
            · intro hx; cases ev <;> simp [ext] at hx
            · intro x t' hx
              have : x = y := by cases ev <;> simp [ext] at hx <;> exact hx.1.symm
              subst this; exact i2 x t rfl
            · intro x t' hx hxs
              have hxy : x = y := by cases ev <;> simp [ext] at hx <;> exact hx.1.symm
              subst hxy
              obtain ⟨ht, hpf⟩ := i3 x t rfl hxs
              subst ht
              cases hst with
              | returned => simp [ext] at hx; exact ⟨hx, rfl⟩
              | raised => simp [ext] at hx; exact ⟨hx, rfl⟩
              | fails hp => rw [hpf] at hp; cases hp
              | _ => simp [PC.final] at hpf)
        (by
          intro h s s' pc _ ih hp _
          exact ih)
      obtain ⟨k1, k2, k3⟩ := hk
      have hp1 : ∃ idx, p = .inner idx false := by
        have hst := Sys.step_stepR hs
        generalize hx : some e.ev = ev at hst
        generalize e.after = sa at hst
        generalize PC.yieldedEmpty = q at hst
        cases hst with
        | @emptyYield idx => exact ⟨idx, rfl⟩
        | fails _ _ hx' =>
          rcases hx' with rfl | ⟨_, rfl, _⟩
          · cases hx
          · injection hx with hx; rw [hev] at hx; cases hx
        | _ => first | cases hx | (injection hx with hx; rw [hev] at hx; cases hx)
      obtain ⟨idx, rfl⟩ := hp1
      cases h1 with
      | nil => rcases k1 rfl with h | ⟨_, h⟩ <;> cases h
      | cons y t =>
        rcases k2 y t rfl with h | h
        · have := hno y (by simp); simp [isPassStart, h] at this
        · have := (k3 y t rfl h).2; simp [PC.final] at this
    · obtain ⟨n, hn, hns⟩ := key pre' x0 (currentPass h1 ++ e :: h2)
        (by
          rw [hh]
          conv => lhs; rw [hpre]
          simp [currentPass]) (.inr (by simpa [isPassStart] using hx0))
      refine ⟨n, hn, ?_⟩
      intro set hset hmem
      apply hns
      have hx0' : x0.ev = .passStart := by simpa [isPassStart] using hx0
      have hyp : yields pre' = l1 := by
        rw [← hy1]
        conv => rhs; rw [hpre]
        have hcy : yields (afterLast isPassStart h1) = [] := hy0
        rw [yields_append, yields_append, hcy, yields_single, hx0']
        simp [Event.yield?]
      obtain ⟨sp, pp, hrp⟩ := hr.prefix (h1 := pre') (h2 := x0 :: (currentPass h1 ++ e :: h2))
        (by
          rw [hh]
          conv => lhs; rw [hpre]
          simp [currentPass])
      obtain ⟨cur, _, hselp⟩ := hrp.pending
      rw [hselp, hyp]
      exact List.mem_append_left _ (List.mem_flatten.2 ⟨set, hset, hmem⟩)
  | _ => rw [hev] at he; simp [Event.yield?] at he

example : DefaultTermination demoArgs ∧ demo.nodes = [0, 1, 2] := ⟨⟨10, 11, rfl, rfl⟩, by decide⟩

/-! ## C16 -/

/-- C16: outside absolute-time mode, the sets yielded in a completed pass are a single
empty one if no node was selected in the pass, and all non-empty otherwise. -/
theorem C16_empty_pass (hr : Reach E a s0 false h s pc) {h1 seg h2 : History α κ W}
    {p e : Entry α κ W} (hh : h = h1 ++ p :: seg ++ e :: h2) (hp : p.ev = .passStart)
    (hseg : ∀ x ∈ seg, x.ev ≠ .passStart) (he : e.ev = .passStart ∨ e.ev = .stop) :
    (selections seg = [] ∧ yields seg = [[]]) ∨ (selections seg ≠ [] ∧ [] ∉ yields seg) := by
  obtain ⟨q, q', hr1, hs, _⟩ := hr.entry (h1 ++ p :: seg) e h2 hh
  have hq : q = .outer := by
    have hst := Sys.step_stepR hs
    generalize hx : some e.ev = ev at hst
    generalize e.after = sa at hst
    cases hst with
    | pass => rfl
    | stopSkip => rfl
    | stopIncr => rfl
    | fails _ _ hx' =>
      rcases hx' with rfl | ⟨h, _, _⟩
      · cases hx
      · exact h
    | _ =>
      first
      | cases hx
      | (injection hx with hx; rw [hx] at he; rcases he with he | he <;> cases he)
  subst hq
  have hps := hr1.passSets
  have hcp : currentPass (h1 ++ p :: seg) = seg :=
    afterLast_append_cons _ _ _ _ (by simp [isPassStart, hp])
      (fun x hx => by simpa [isPassStart] using hseg x hx)
  rw [hcp] at hps
  rcases hps with h | h | h
  · simp at h
  · exact .inl h
  · exact .inr h

/-- C16: at every point, the current pass contains an empty set only if that is its only
set and nothing was selected in it. -/
theorem C16_only_empty_pass (hr : Reach E a s0 false h s pc) (he : [] ∈ yields (currentPass h)) :
    selections (currentPass h) = [] ∧ yields (currentPass h) = [[]] := by
  have hps := hr.passSets
  have hnil : yields h = [] → False := by
    intro hn
    obtain ⟨pre, hpre, _, _⟩ := afterLast_split isPassStart h
    have : yields h = yields pre ++ yields (currentPass h) := by
      rw [← yields_append]; exact congrArg yields hpre
    rw [hn] at this
    have := List.append_eq_nil_iff.1 this.symm
    rw [this.2] at he; simp at he
  cases pc with
  | outer =>
    rcases hps with h | h | h
    · subst h; simp [currentPass, afterLast, yields] at he
    · exact h
    · exact absurd he h.2
  | returned =>
    rcases hps with h | h | h
    · exact (hnil h).elim
    · exact h
    · exact absurd he h.2
  | inner => exact absurd he hps.1
  | choosing => exact absurd he hps.1
  | yielded => exact absurd he hps.1
  | yieldedEmpty => exact hps
  | raised =>
    rcases hps with h | h | h
    · exact (hnil h).elim
    · exact h
    · exact absurd he h

/-! ## C17, within one run -/

/-- C17 for one run: at every point of the run (in particular at every suspension and
when it returns), `execution_list[id]` is what it was at the start of the run followed by
the yielded sets. -/
theorem C17_one_run (hr : Reach E a s0 abs h s pc)
    (hE : Keeps E (fun s => Dict.get? s.execList a.id)) (hpc : ∀ e, pc ≠ .raised e)
    {l0} (hl0 : Dict.get? s0.execList a.id = some l0) :
    Dict.get? s.execList a.id = some (l0 ++ yields h) := by
  obtain ⟨s1, hs1⟩ : ∃ s1, s0.start a = (s1, .ok abs) := by
    refine hr.ind (P := fun _ _ _ => ∃ s1, s0.start a = (s1, .ok abs)) ?_ ?_ ?_
    · intro s hs; exact ⟨s, hs⟩
    · intros; assumption
    · intros; assumption
  obtain ⟨l, hl, hx, _⟩ := (Sys.start_ok hs1).list
  have := hx l0 hl0
  subst this
  exact hr.execs hE hpc hs1 hl

example : Dict.get? demo.execList none = some [] := rfl

end GS.Props

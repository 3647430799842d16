import Verif.Spec.Midrun
import Verif.Props.RunOrder
import Verif.Props.Edits
import Verif.Props.Whole
/-!
# C95, C96: changes of conditions and graph during a run
-/

set_option linter.unusedSectionVars false

namespace GS
open Spec Props
variable {α κ W β : Type _} [DecidableEq α] [DecidableEq κ]
variable {E : Sys α κ W → Sys α κ W → Prop} {a : RunArgs α κ W} {s0 s : Sys α κ W}
variable {abs : Bool} {h : History α κ W} {pc : PC α}

/-- What has been considered in the current pass, and how its inner loop was left. -/
def PassSoFar (E : Sys α κ W → Sys α κ W → Prop) (a : RunArgs α κ W) (s0 : Sys α κ W)
    (abs : Bool) (h : History α κ W) (s : Sys α κ W) : PC α → Prop
  | .inner k _ => setsConsidered (currentPass h) = List.range k
  | .choosing c => setsConsidered (currentPass h) = List.range (c.idx + 1)
  | .yielded i _ => setsConsidered (currentPass h) = List.range (i + 1)
  | .raised _ => ∃ k, setsConsidered (currentPass h) = List.range k
  | pc => ((∃ e ∈ h, e.ev = .passStart) → ∃ k, setsConsidered (currentPass h) = List.range k ∧
      ∃ h' t s' ch, h = h' ++ t ∧ (∀ e ∈ t, e.ev ≠ .passStart) ∧
        Reach E a s0 abs h' s' (.inner k ch) ∧ (s'.queue.length ≤ k ∨ Finished s' a) ∧
        ((∃ e ∈ t, e.before.queue = s'.queue) ∨ (pc = .outer ∧ s.queue = s'.queue))) ∧
      ∃ k, setsConsidered (currentPass h) = List.range k

theorem leaves_cases {s : Sys α κ W} {a : RunArgs α κ W} {idx : Nat} {st}
    (hl : Leaves s a idx st) : s.queue.length ≤ idx ∨ Finished s a := by
  rcases hl with ⟨h, _⟩ | ⟨_, h⟩
  · left; simpa [List.getElem?_eq_none_iff] using h
  · exact .inr h.finished

/-- A stop entry after the inner loop was left. -/
theorem passSoFar_stop {s1 s2 : Sys α κ W}
    (ih : PassSoFar E a s0 abs h s .outer) :
    PassSoFar E a s0 abs (h ++ [⟨s, .stop, s1⟩]) s2 .returned := by
  constructor
  · rintro ⟨e, he, hp⟩
    rcases List.mem_append.mp he with he | he
    · obtain ⟨k, h1, h', t, s', ch, e1, e2, e3, e4, e5⟩ := ih.1 ⟨e, he, hp⟩
      refine ⟨k, by simp [currentPass_snoc, setsConsidered_snoc, h1], h', t ++ [⟨s, .stop, s1⟩], s', ch,
        by rw [e1, List.append_assoc], ?_, e3, e4, .inl ?_⟩
      · intro x hx
        rcases List.mem_append.mp hx with hx | hx
        · exact e2 x hx
        · simp at hx; subst hx; simp
      · rcases e5 with ⟨x, hx, k⟩ | ⟨_, k⟩
        · exact ⟨x, List.mem_append_left _ hx, k⟩
        · exact ⟨_, List.mem_append_right _ (List.mem_singleton.2 rfl), k⟩
    · simp at he; subst he; cases hp
  · obtain ⟨k, hk⟩ := ih.2
    exact ⟨k, by simp [currentPass_snoc, setsConsidered_snoc, hk]⟩

theorem passSoFar_range {pc : PC α} (ih : PassSoFar E a s0 abs h s pc) :
    ∃ k, setsConsidered (currentPass h) = List.range k := by
  cases pc with
  | inner k _ => exact ⟨k, ih⟩
  | choosing c => exact ⟨_, ih⟩
  | yielded i _ => exact ⟨_, ih⟩
  | raised _ => exact ih
  | outer => exact ih.2
  | returned => exact ih.2
  | yieldedEmpty => exact ih.2

theorem Reach.passSoFar (hr : Reach E a s0 abs h s pc) : PassSoFar E a s0 abs h s pc := by
  refine hr.ind (P := fun h s pc => PassSoFar E a s0 abs h s pc) ?_ ?_ ?_
  · intro s _
    exact ⟨fun ⟨_, he, _⟩ => absurd he (by simp), 0, rfl⟩
  · intro h s s' pc pc' ev hr ih hst
    have hq : s'.queue = s.queue := hst.frame.queue
    cases hst with
    | pass => simp [PassSoFar, currentPass_snoc, setsConsidered]
    | stopSkip => rw [ext_some]; exact passSoFar_stop ih
    | stopIncr => rw [ext_some]; exact passSoFar_stop ih
    | passEnd hl =>
      rw [ext_none]
      refine ⟨fun _ => ⟨_, ih, h, [], s, _, by simp, by simp, hr, leaves_cases hl, .inr ⟨rfl, hq⟩⟩, _, ih⟩
    | emptyYield hl =>
      rw [ext_some]
      simp only [PassSoFar] at ih
      refine ⟨fun _ => ⟨_, by simpa [currentPass_snoc, setsConsidered_snoc] using ih, h, [⟨s, .emptyPass, _⟩], s, _, rfl,
        by simp, hr, leaves_cases hl, .inl ⟨_, List.mem_singleton.2 rfl, rfl⟩⟩, _,
        by simpa [currentPass_snoc, setsConsidered_snoc] using ih⟩
    | consider => simpa [PassSoFar, currentPass_snoc, setsConsidered_snoc, List.range_succ] using ih
    | again => rw [ext_none]; exact ih
    | skip => rw [ext_none]; exact ih
    | reject => rw [ext_none]; exact ih
    | add => simpa [PassSoFar, currentPass_snoc, setsConsidered_snoc] using ih
    | yield => simpa [PassSoFar, currentPass_snoc, setsConsidered_snoc] using ih
    | yieldAbs => simpa [PassSoFar, currentPass_snoc, setsConsidered_snoc] using ih
    | silent => simpa [PassSoFar, currentPass_snoc, setsConsidered_snoc] using ih
    | resume => rw [ext_none]; exact ih
    | resumeEmpty =>
      rw [ext_none]
      refine ⟨fun hx => ?_, ih.2⟩
      obtain ⟨k, h1, h', t, s1, ch, e1, e2, e3, e4, e5⟩ := ih.1 hx
      refine ⟨k, h1, h', t, s1, ch, e1, e2, e3, e4, ?_⟩
      rcases e5 with e5 | ⟨k, _⟩
      · exact .inl e5
      · cases k
    | returned => rw [ext_none]; exact ih
    | raised => rw [ext_none]; exact ih
    | fails h1 h2 hev =>
      obtain ⟨k, hk⟩ := passSoFar_range ih
      rcases hev with rfl | ⟨rfl, rfl, _⟩
      · exact ⟨k, by simpa using hk⟩
      · exact ⟨k, by simp [currentPass_snoc, setsConsidered_snoc, hk]⟩
  · intro h s s' pc hr ih hp _
    cases pc with
    | inner k _ => exact ih
    | choosing c => exact ih
    | yielded i _ => exact ih
    | raised _ => exact ih
    | outer => simp [PC.suspended] at hp
    | returned =>
      refine ⟨fun hx => ?_, ih.2⟩
      obtain ⟨k, h1, h', t, s1, ch, e1, e2, e3, e4, e5⟩ := ih.1 hx
      refine ⟨k, h1, h', t, s1, ch, e1, e2, e3, e4, ?_⟩
      rcases e5 with e5 | ⟨k, _⟩
      · exact .inl e5
      · cases k
    | yieldedEmpty =>
      refine ⟨fun hx => ?_, ih.2⟩
      obtain ⟨k, h1, h', t, s1, ch, e1, e2, e3, e4, e5⟩ := ih.1 hx
      refine ⟨k, h1, h', t, s1, ch, e1, e2, e3, e4, ?_⟩
      rcases e5 with e5 | ⟨k, _⟩
      · exact .inl e5
      · cases k


theorem considered_layer (hr : Reach E a s0 abs h s pc) {h1 h2 : History α κ W} {e : Entry α κ W}
    (hh : h = h1 ++ e :: h2) {i : Nat} {layer : List α} (hev : e.ev = .consider i layer) :
    e.before.queue[i]? = some layer := by
  obtain ⟨q, q', hq, hs, _⟩ := hr.entry h1 e h2 hh
  have hst := Sys.step_stepR hs
  generalize hx : some e.ev = ev at hst
  generalize e.after = sa at hst
  cases hst with
  | consider hl => rw [hev] at hx; cases hx; exact hl
  | fails _ _ h' =>
    rcases h' with rfl | ⟨_, rfl, _⟩
    · cases hx
    · rw [hev] at hx; cases hx
  | _ => first | cases hx | (rw [hev] at hx; cases hx)

namespace Props

/-- C96: whatever is changed while the run is suspended, a pass counts through the
positions of the consideration queue, and at each position it considers the set which the
queue has there at that moment. -/
theorem C96_positions (hr : Reach E a s0 abs h s pc)
    {h1 seg h2 : History α κ W} {p : Entry α κ W} (hh : h = h1 ++ p :: seg ++ h2)
    (hp : p.ev = .passStart) (hseg : ∀ e ∈ seg, e.ev ≠ .passStart) :
    (∃ k, setsConsidered seg = List.range k) ∧
    (∀ e ∈ seg, ∀ i layer, e.ev = .consider i layer → e.before.queue[i]? = some layer) ∧
    (choices seg).map Prod.fst <+: setsConsidered seg ∧
    ∀ e ∈ seg, ∀ i set shown, e.ev = .layer i set shown →
      set.Nodup ∧ (∀ n ∈ set, At e.before.queue i n) ∧ (shown = false → set = []) := by
  obtain ⟨s', pc', hr1⟩ := hr.prefix hh
  obtain ⟨k, hk⟩ := passSoFar_range hr1.passSoFar
  obtain ⟨k', hk1, hk2⟩ := hr1.layers
  rw [currentPass_mid hp hseg] at hk hk2
  refine ⟨⟨k, hk⟩, ?_, ?_, ?_⟩
  · intro e he i layer hev
    obtain ⟨u, v, rfl⟩ := mem_split he
    exact considered_layer hr (h1 := h1 ++ p :: u) (h2 := v ++ h2) (by rw [hh]; simp) hev
  · have hle : k' ≤ k := by
      rcases Nat.eq_zero_or_pos k' with rfl | hpos
      · exact Nat.zero_le _
      · have : k' - 1 ∈ (chosen seg).map Prod.fst := by rw [hk2, List.mem_range]; omega
        obtain ⟨⟨i, set⟩, hm, hi⟩ := List.mem_map.1 this
        obtain ⟨e, he, shown, hev⟩ := chosen_mem hm
        obtain ⟨u, v, rfl⟩ := mem_split he
        obtain ⟨es, ⟨c0, pre, layer, g1, g2⟩, g3, _⟩ :=
          C07_sound hr (h1 := h1 ++ p :: u) (h2 := v ++ h2) (by rw [hh]; simp) hev
        have hes : ∀ x ∈ es, x.ev ≠ .passStart := by
          intro x hx hx'
          have : x.ev ∈ set.map Event.add := g3 ▸ List.mem_map.2 ⟨x, hx, rfl⟩
          obtain ⟨n, _, hn⟩ := List.mem_map.1 this
          rw [hx'] at hn; cases hn
        have hc0 : c0 ∈ u := by
          rcases List.append_eq_append_iff.mp g2 with ⟨w, hw1, hw2⟩ | ⟨w, hw1, hw2⟩
          · cases w with
            | nil => cases hw2; rw [g1] at hp; cases hp
            | cons x w =>
              rw [List.cons_append, List.cons.injEq] at hw2
              rw [hw2.2]; simp
          · cases w with
            | nil => cases hw2; rw [g1] at hp; cases hp
            | cons x w =>
              rw [List.cons_append, List.cons.injEq] at hw2
              exact absurd hp (hes p (by rw [hw2.2]; simp))
        have : i ∈ setsConsidered (u ++ e :: v) := by
          unfold setsConsidered
          rw [List.mem_filterMap]
          exact ⟨c0, by simp [hc0], by rw [g1]⟩
        rw [hk, List.mem_range] at this
        dsimp only at hi; omega
    show (chosen seg).map Prod.fst <+: _
    rw [hk, hk2]
    refine ⟨(List.range k).drop k', ?_⟩
    have : List.range k' = (List.range k).take k' := by rw [List.take_range, Nat.min_eq_left hle]
    rw [this, List.take_append_drop]
  · intro e he i set shown hev
    obtain ⟨u, v, rfl⟩ := mem_split he
    obtain ⟨c, hc, rfl, rfl, _, _, hsh, _⟩ :=
      hr.layerEntry (h1 := h1 ++ p :: u) (h2 := v ++ h2) (by rw [hh]; simp) hev
    have ci := hc.choice c rfl
    exact ⟨ci.nodup, fun n hn => ⟨c.layer, ci.queue, ci.sub n hn⟩, fun x => (hsh x).1⟩

/-- C96: in a pass during which the queue stays as it is, the sets of that queue are
considered in order, and the yielded (non-empty) sets are duplicate-free subsets of them at
strictly increasing positions; whatever was changed before. -/
theorem C96_pass_partial (hr : Reach E a s0 abs h s pc) {q : List (List α)}
    {h1 seg h2 : History α κ W} {p : Entry α κ W} (hh : h = h1 ++ p :: seg ++ h2)
    (hp : p.ev = .passStart) (hseg : ∀ e ∈ seg, e.ev ≠ .passStart)
    (hq : ∀ e ∈ seg, e.before.queue = q) :
    (∃ k, setsConsidered seg = List.range k ∧ k ≤ q.length) ∧
    (∀ e ∈ seg, ∀ i layer, e.ev = .consider i layer → q[i]? = some layer) ∧
    ∃ ps : List (Nat × List α),
      ps.map Prod.snd = (yields seg).filter (fun set => decide (set ≠ [])) ∧
      (ps.map Prod.fst).Pairwise (· < ·) ∧
      ∀ p ∈ ps, p.2.Nodup ∧ ∀ n ∈ p.2, At q p.1 n := by
  obtain ⟨⟨k, hk⟩, c2, c3, c4⟩ := C96_positions hr hh hp hseg
  have c2' : ∀ e ∈ seg, ∀ i layer, e.ev = .consider i layer → q[i]? = some layer := by
    intro e he i layer hev; rw [← hq e he]; exact c2 e he i layer hev
  refine ⟨⟨k, hk, ?_⟩, c2', (choices seg).filter (fun p => decide (p.2 ≠ [])), ?_, ?_, ?_⟩
  · rcases Nat.eq_zero_or_pos k with rfl | hpos
    · exact Nat.zero_le _
    · have : k - 1 ∈ setsConsidered seg := by rw [hk, List.mem_range]; omega
      unfold setsConsidered at this
      rw [List.mem_filterMap] at this
      obtain ⟨e, he, hev⟩ := this
      cases hx : e.ev with
      | consider i layer =>
        rw [hx] at hev; simp at hev
        have := (List.getElem?_eq_some_iff.mp (c2' e he i layer hx)).1
        omega
      | _ => rw [hx] at hev; cases hev
  · clear c3 c2 c2' hk hh hseg hq
    induction seg with
    | nil => rfl
    | cons e seg ih =>
      have ih := ih (fun e he => c4 e (List.mem_cons_of_mem _ he))
      have he := c4 e (List.mem_cons_self ..)
      have e1 : choices (e :: seg) = choices [e] ++ choices seg := by
        unfold choices; rw [← List.filterMap_append]; rfl
      have e2 : yields (e :: seg) = yields [e] ++ yields seg := by
        rw [← yields_append]; rfl
      rw [e1, e2, List.filter_append, List.filter_append, List.map_append, ih]
      congr 1
      rw [yields_single]
      cases hev : e.ev with
      | layer i set shown =>
        cases shown with
        | true => by_cases hs : set = [] <;> simp [choices, hev, Event.yield?, hs]
        | false => have := (he i set false hev).2.2 rfl; simp [choices, hev, Event.yield?, this]
      | _ => simp [choices, hev, Event.yield?]
  · have hpw : ((choices seg).map Prod.fst).Pairwise (· < ·) := by
      have := List.pairwise_lt_range (n := k)
      rw [← hk] at this
      exact this.sublist c3.sublist
    exact hpw.sublist ((List.filter_sublist).map _)
  · intro p hp
    have hp := (List.mem_filter.1 hp).1
    unfold choices at hp
    rw [List.mem_filterMap] at hp
    obtain ⟨e, he, hp⟩ := hp
    cases hev : e.ev with
    | layer i set shown =>
      rw [hev] at hp; simp at hp; subst hp
      have := c4 e he i set shown hev
      rw [hq e he] at this
      exact ⟨this.1, this.2.1⟩
    | _ => rw [hev] at hp; simp at hp

/-- C96: a pass that is over considered every set of the queue if the queue stayed as it is
during the pass, unless a termination condition was satisfied. -/
theorem C96_whole_pass_partial (hr : Reach E a s0 abs h s pc) {q : List (List α)}
    {h1 seg h2 : History α κ W} {p p2 : Entry α κ W} (hh : h = h1 ++ p :: seg ++ p2 :: h2)
    (hp : p.ev = .passStart) (hseg : ∀ e ∈ seg, e.ev ≠ .passStart)
    (hp2 : p2.ev = .passStart ∨ p2.ev = .stop)
    (hq : ∀ e ∈ seg ++ [p2], e.before.queue = q) :
    setsConsidered seg = List.range q.length ∨
    ∃ seg' t s' k ch, seg = seg' ++ t ∧ setsConsidered seg = List.range k ∧ k < q.length ∧
      Reach E a s0 abs (h1 ++ p :: seg') s' (.inner k ch) ∧ Finished s' a := by
  obtain ⟨pc', pc'', hr1, hs, _⟩ := hr.entry (h1 ++ p :: seg) p2 h2 hh
  have hpc : pc' = .outer := by
    have hst := Sys.step_stepR hs
    generalize hx : some p2.ev = ev at hst
    generalize p2.after = sa at hst
    cases hst with
    | pass => rfl
    | stopSkip => rfl
    | stopIncr => rfl
    | fails _ _ h' =>
      rcases h' with rfl | ⟨h', _, _⟩
      · cases hx
      · exact h'
    | _ => first | cases hx | (rcases hp2 with hp2 | hp2 <;> (rw [hp2] at hx; cases hx))
  subst hpc
  obtain ⟨k, k1, h', t, s', ch, e1, e2, e3, e4, e5⟩ := (hr1.passSoFar).1 ⟨p, by simp, hp⟩
  rw [currentPass_mid hp hseg] at k1
  -- the tail lies within the segment
  have hin : ∃ seg', seg = seg' ++ t ∧ h' = h1 ++ p :: seg' := by
    rcases List.append_eq_append_iff.mp e1 with ⟨u, hu1, hu2⟩ | ⟨u, hu1, hu2⟩
    · cases u with
      | nil =>
        rw [List.nil_append] at hu2
        exact absurd hp (e2 p (by rw [← hu2]; simp))
      | cons x u =>
        rw [List.cons_append, List.cons.injEq] at hu2
        obtain ⟨rfl, rfl⟩ := hu2
        exact ⟨u, rfl, hu1⟩
    · exact absurd hp (e2 p (by rw [hu2]; simp))
  obtain ⟨seg', rfl, rfl⟩ := hin
  have hsq : s'.queue = q := by
    rcases e5 with ⟨e, he, e5⟩ | ⟨_, e5⟩
    · rw [← e5]; exact hq e (by simp [he])
    · rw [← e5]; exact hq p2 (by simp)
  by_cases hk : k < q.length
  · right
    rcases e4 with e4 | e4
    · rw [hsq] at e4; omega
    · exact ⟨seg', t, s', k, ch, rfl, k1, hk, e3, e4⟩
  · left
    obtain ⟨⟨k', g1, g2⟩, _⟩ := C96_pass_partial hr (h2 := p2 :: h2) hh hp hseg
      (fun e he => hq e (List.mem_append_left _ he))
    have : k = k' := by
      have := congrArg List.length (k1.symm.trans g1); simpa using this
    rw [k1]; congr 1; omega

/-! ## Conditions changed during a run -/

theorem popN_cset : ∀ (k : Nat) (s : Stack α κ W), (Stack.popN k s).1.cset = s.cset
  | 0, _ => rfl
  | k + 1, s => by
    unfold Stack.popN
    split
    · rfl
    · exact popN_cset k _

theorem pushAll_cset : ∀ (cs : List (SCond α)) (s : Stack α κ W) (g : Graph α),
    (s.pushAll g cs).1.cset = s.cset
  | [], _, _ => rfl
  | c :: cs, s, g => by
    unfold Stack.pushAll
    split
    · rfl
    · exact pushAll_cset cs _ _

theorem handle_cset (s : Stack α κ W) : s.handle.1.cset = s.cset := by
  unfold Stack.handle
  dsimp only
  split
  · rfl
  · have h1 := popN_cset (numPops s.last (commonWith s.last (s.cset.order.map (·.o)))) s
    split
    · rename_i h; rw [h] at h1; exact h1
    · rename_i s1 h
      rw [h] at h1
      split
      · exact h1
      · rename_i g _ _
        have h2 := pushAll_cset (s.cset.order.drop (commonWith s.last (s.cset.order.map (·.o)))) s1 g
        split
        · rename_i h; rw [h] at h2; exact h2.trans h1
        · rename_i h; rw [h] at h2; exact h2.trans h1

/-- C95: after `add_condition(n, c)` during a run, `c` is the condition of `n` and the
other nodes have the conditions they had. -/
theorem C95_added {s s' : Sys α κ W} {n : α} {c : Cond α κ W}
    (he : Edited (.add n (.basic c)) s s') :
    Dict.get? s'.conds n = some c ∧ ∀ m, m ≠ n → Dict.get? s'.conds m = Dict.get? s.conds m := by
  obtain ⟨st, st', hb, hc, hb', _⟩ := he
  simp only [SchedOp.call, Stack.addCondition, CSet.add] at hc
  have h1 := handle_cset { st with cset := st.cset.addBasic n c }
  rw [hc] at h1
  rw [← hb'.conds, ← hb.conds, h1]
  simp only [CSet.addBasic, Dict.get?_set]
  exact ⟨by simp, fun m hm => by simp [Ne.symm hm]⟩

/-- C95: after `remove_condition(n)` during a run (which does not raise), `n` has no basic
condition. -/
theorem C95_removed {s s' : Sys α κ W} {n : α} (hw : Dict.WF s.conds)
    (he : Edited (.removeOf n) s s') :
    Dict.get? s'.conds n = none ∧ ∀ m, m ≠ n → Dict.get? s'.conds m = Dict.get? s.conds m := by
  obtain ⟨st, st', hb, hc, hb', _⟩ := he
  simp only [SchedOp.call, Stack.removeConditionOf, Prod.mk.injEq] at hc
  obtain ⟨h1, h2⟩ := hc
  rw [← hb'.conds, ← hb.conds, ← h1]
  rw [← hb.conds] at hw
  clear h1 hb hb'
  generalize hr : st.cset.removeOwner n = r at h2 ⊢
  unfold CSet.removeOwner at hr
  split at hr <;> subst hr
  · simp [raised] at h2
  · simp only [CSet.removeBasic, Dict.get?_erase hw]
    exact ⟨by simp, fun m hm => by simp [Ne.symm hm]⟩
  · simp [raised] at h2
  · simp [raised] at h2
  · rename_i e1 e2; exact ⟨e1, fun _ _ => rfl⟩
  · rename_i e1 e2; exact ⟨e1, fun _ _ => rfl⟩

theorem choosing_conds (hr : Reach E a s0 abs h s pc) :
    ∀ c, pc = .choosing c → ∀ x ∈ afterLast isConsider h, x.before.conds = s.conds := by
  refine hr.ind (P := fun h s pc => ∀ c, pc = .choosing c →
    ∀ x ∈ afterLast isConsider h, x.before.conds = s.conds) ?_ ?_ ?_
  · intro s _ c hc; cases hc
  · intro h s s' pc pc' ev _ ih hst c' hc' x hx
    have hq : s'.conds = s.conds := hst.frame.conds
    rw [hq]
    cases hst with
    | consider =>
      rw [ext_some, afterLast_snoc] at hx; simp [isConsider] at hx
    | again => exact ih _ rfl x (by simpa using hx)
    | skip => exact ih _ rfl x (by simpa using hx)
    | reject => exact ih _ rfl x (by simpa using hx)
    | add =>
      rw [ext_some, afterLast_snoc] at hx
      simp only [isConsider, Bool.false_eq_true, if_false] at hx
      rcases List.mem_append.1 hx with hx | hx
      · exact ih _ rfl x hx
      · simp at hx; subst hx; rfl
    | _ => cases hc'
  · intro h s s' pc _ ih hp _ c hc
    subst hc; simp [PC.suspended] at hp

/-- C95: as long as `c` is the condition of `n`, whatever it was before, `n` is put into a
set only while `c` is satisfied, and left out only if `c` is not satisfied with the counts
that result from the set (and an at most older state of `NWhen` counters). -/
theorem C95_obeyed_partial (hr : Reach E a s0 abs h s pc) {h1 h2 : History α κ W} {e : Entry α κ W}
    (hh : h = h1 ++ e :: h2) {i : Nat} {set : List α} {shown : Bool}
    (he : e.ev = .layer i set shown) {n : α} {c : Cond α κ W} (hn : At e.before.queue i n)
    (hc : Dict.get? e.before.conds n = some c) :
    (n ∈ set → ∃ x pre suf, h1 = pre ++ x :: suf ∧ (∀ y ∈ suf, ∃ m, y.ev = .add m) ∧
      x.ev = .add n ∧ Evaluates x.before a.id c true) ∧
    (n ∉ set → ∃ st : Store α κ, st.owner = e.before.store.owner ∧
      (∀ o j, st.sat o j ≤ e.before.store.sat o j) ∧
      (eval e.before.toView a.id c st).1 = .ok false) := by
  constructor
  · intro hns
    obtain ⟨es, ⟨c0, pre, layer, g1, g2⟩, g3, g4⟩ := C07_sound hr hh he
    have : Event.add n ∈ es.map (fun x => x.ev) := by rw [g3]; exact List.mem_map.2 ⟨n, hns, rfl⟩
    obtain ⟨x, hx, hxe⟩ := List.mem_map.1 this
    obtain ⟨c', k1, k2⟩ := g4 x hx n hxe
    obtain ⟨ch, hch, _⟩ := hr.layerEntry hh he
    have hadds : ∀ y ∈ es, ∃ m, y.ev = .add m := by
      intro y hy
      have : y.ev ∈ set.map Event.add := g3 ▸ List.mem_map.2 ⟨y, hy, rfl⟩
      obtain ⟨m, _, hm⟩ := List.mem_map.1 this
      exact ⟨m, hm.symm⟩
    have hcd := choosing_conds hch ch rfl x (by
      rw [g2]
      have := afterLast_append_of_none isConsider (pre ++ [c0]) es (fun y hy => by
        obtain ⟨m, hm⟩ := hadds y hy
        simp [isConsider, hm])
      rw [List.append_assoc, List.singleton_append] at this
      rw [this]
      exact List.mem_append_right _ hx)
    rw [hcd, hc] at k1
    cases k1
    obtain ⟨u, v, rfl⟩ := mem_split hx
    exact ⟨x, pre ++ c0 :: u, v, by rw [g2]; simp, fun y hy => hadds y (by simp [hy]), hxe, k2⟩
  · intro hns
    obtain ⟨layer, k1, k2⟩ := C08_maximal hr hh he
    obtain ⟨l, hl, hnl⟩ := hn
    rw [k1] at hl; cases hl
    obtain ⟨cond, st, m1, m2, m3, m4⟩ := k2 n hnl hns
    rw [hc] at m1; cases m1
    exact ⟨st, m2, m3, m4⟩

/-- C95: if a set is considered in which a node has no basic condition (because it was
removed during the run), the run yields nothing any more and does not return; it can only
go on evaluating conditions of that set or raise. -/
theorem C95_without_condition (hr : Reach E a s0 abs h s pc) {h1 h2 : History α κ W}
    {e : Entry α κ W} (hh : h = h1 ++ e :: h2) {i : Nat} {layer : List α}
    (he : e.ev = .consider i layer) {n : α} (hn : n ∈ layer)
    (hc : Dict.get? e.before.conds n = none) :
    (∀ x ∈ h2, ∃ m, x.ev = .add m) ∧
    ((∃ c, pc = .choosing c ∧ n ∈ c.todo) ∨ ∃ err, pc = .raised err) := by
  have key := hr.ind (P := fun h s pc => ∀ h2, h = h1 ++ e :: h2 → (∀ x ∈ h2, ∃ m, x.ev = .add m) ∧
      ((∃ c, pc = .choosing c ∧ n ∈ c.todo ∧ n ∉ c.exec ∧ Dict.get? s.conds n = none) ∨
        ∃ err, pc = .raised err)) ?_ ?_ ?_
  · obtain ⟨k1, k2⟩ := key h2 hh
    refine ⟨k1, k2.imp ?_ id⟩
    rintro ⟨c, e1, e2, _⟩; exact ⟨c, e1, e2⟩
  · intro s _ h2 hh; simp at hh
  · intro h s s' pc pc' ev hr ih hst h2 hh
    have hq : s'.conds = s.conds := hst.frame.conds
    have hold : ∀ h2, h = h1 ++ e :: h2 →
        (∀ x ∈ h2, ∃ m, x.ev = .add m) ∧ (∀ x, ev = some x → ∃ m, x = .add m) ∧
        ((∃ c, pc' = .choosing c ∧ n ∈ c.todo ∧ n ∉ c.exec ∧ Dict.get? s'.conds n = none) ∨
          ∃ err, pc' = .raised err) := by
      intro h2 hh
      obtain ⟨k1, k2⟩ := ih h2 hh
      refine ⟨k1, ?_⟩
      rcases k2 with ⟨c, rfl, t1, t2, t3⟩ | ⟨err, rfl⟩
      · cases hst with
        | again ht => rw [ht] at t1; cases t1
        | @skip _ m ms ht hm =>
          refine ⟨by simp, .inl ⟨_, rfl, ?_, t2, t3⟩⟩
          rw [ht] at t1
          rcases List.mem_cons.1 t1 with rfl | t1
          · exact absurd hm t2
          · exact t1
        | @reject _ m ms cond st ht hm hcm =>
          refine ⟨by simp, .inl ⟨_, rfl, ?_, t2, t3⟩⟩
          rw [ht] at t1
          rcases List.mem_cons.1 t1 with rfl | t1
          · rw [t3] at hcm; cases hcm
          · exact t1
        | @add _ m ms cond st f u ht hm hcm =>
          refine ⟨fun x hx => ⟨m, by simpa using hx.symm⟩, .inl ⟨_, rfl, ?_, ?_, t3⟩⟩
          · rw [ht] at t1
            rcases List.mem_cons.1 t1 with rfl | t1
            · rw [t3] at hcm; cases hcm
            · exact t1
          · intro hx
            rcases List.mem_append.1 hx with hx | hx
            · exact t2 hx
            · simp at hx; subst hx; rw [t3] at hcm; cases hcm
        | yield ht => rw [ht] at t1; cases t1
        | yieldAbs ht => rw [ht] at t1; cases t1
        | silent ht => rw [ht] at t1; cases t1
        | fails _ _ hev =>
          rcases hev with rfl | ⟨k, _, _⟩
          · exact ⟨by simp, .inr ⟨_, rfl⟩⟩
          · cases k
      · cases hst with
        | raised => exact ⟨by simp, .inr ⟨_, rfl⟩⟩
        | fails hp => simp [PC.final] at hp
    cases ev with
    | none => rw [ext_none] at hh; exact ⟨(hold h2 hh).1, (hold h2 hh).2.2⟩
    | some x =>
      rw [ext_some] at hh
      rcases List.eq_nil_or_concat h2 with rfl | ⟨h2', y, rfl⟩
      · obtain ⟨_, e2⟩ := List.append_inj' hh rfl
        simp only [List.cons.injEq, and_true] at e2
        subst e2
        dsimp only at he hc
        subst he
        refine ⟨by simp, ?_⟩
        generalize hx : some (Event.consider i layer) = ev at hst
        cases hst with
        | consider => cases hx; exact .inl ⟨_, rfl, hn, by simp, hc⟩
        | fails => exact .inr ⟨_, rfl⟩
        | _ => cases hx
      · rw [List.concat_eq_append] at hh ⊢
        have hh' : h ++ [⟨s, x, s'⟩] = (h1 ++ e :: h2') ++ [y] := by rw [hh]; simp
        obtain ⟨e1, e2⟩ := List.append_inj' hh' rfl
        simp only [List.cons.injEq, and_true] at e2
        obtain ⟨k1, k2, k3⟩ := hold h2' e1
        refine ⟨?_, k3⟩
        intro z hz
        rcases List.mem_append.1 hz with hz | hz
        · exact k1 z hz
        · simp at hz; subst hz; subst e2; exact k2 _ rfl
  · intro h s s' pc hr ih hp _ h2 hh
    obtain ⟨k1, ⟨c, k2, _⟩ | ⟨err, k2⟩⟩ := ih h2 hh <;> (subst k2; simp [PC.suspended] at hp)

/-! ## Witnesses -/

/-- What the run sees of `st`, when it was in the state `s`. -/
def seenIn (st : Stack Nat Nat Unit) (s : Sys Nat Nat Unit) : Sys Nat Nat Unit :=
  { s with
    graph := match st.readGraph.2 with | .ok g => g | .error _ => []
    queue := match st.readQueue.2 with | .ok q => q | .error _ => []
    conds := st.cset.basic, store := st.cset.store }

/-- The scheduler's state before a run. -/
def before (w : Whole Nat Nat Unit) : Sys Nat Nat Unit := seenIn w.stack w.rest

/-- The state of the run of `w` after `k` steps. -/
def first (w : Whole Nat Nat Unit) (a : RunArgs Nat Nat Unit) (k : Nat) :
    History Nat Nat Unit × Sys Nat Nat Unit × PC Nat := runAfter (before w) a k

/-- The call `op` after `k` steps of the run. -/
def called (w : Whole Nat Nat Unit) (a : RunArgs Nat Nat Unit) (k : Nat)
    (op : SchedOp Nat Nat Unit) : Stack Nat Nat Unit × Option Err :=
  op.call (w.after (first w a k).2.1).stack

/-- `k` steps of the run, then the call `op`, then `l` steps. -/
def editedRun (w : Whole Nat Nat Unit) (a : RunArgs Nat Nat Unit) (k : Nat)
    (op : SchedOp Nat Nat Unit) (l : Nat) : History Nat Nat Unit × Sys Nat Nat Unit × PC Nat :=
  steps a false l (first w a k).1 (seenIn (called w a k op).1 (first w a k).2.1) (first w a k).2.2

/-- What is to be checked by evaluation. -/
def Editable (w : Whole Nat Nat Unit) (a : RunArgs Nat Nat Unit) (k : Nat)
    (op : SchedOp Nat Nat Unit) : Prop :=
  ((before w).start a).2 = .ok false ∧ (first w a k).2.2.suspended = true ∧
  (w.after (first w a k).2.1).stack.readGraph.2 = .ok (first w a k).2.1.graph ∧
  (w.after (first w a k).2.1).stack.readQueue.2 = .ok (first w a k).2.1.queue ∧
  (called w a k op).2 = none ∧
  (called w a k op).1.readGraph.2 = .ok (seenIn (called w a k op).1 (first w a k).2.1).graph ∧
  (called w a k op).1.readQueue.2 = .ok (seenIn (called w a k op).1 (first w a k).2.1).queue

instance (w : Whole Nat Nat Unit) (a : RunArgs Nat Nat Unit) (k : Nat)
    (op : SchedOp Nat Nat Unit) : Decidable (Editable w a k op) := by
  unfold Editable; infer_instance

theorem edited_first {w : Whole Nat Nat Unit} {a : RunArgs Nat Nat Unit} {k : Nat}
    {op : SchedOp Nat Nat Unit} (h : Editable w a k op) :
    Edited op (first w a k).2.1 (seenIn (called w a k op).1 (first w a k).2.1) :=
  ⟨(w.after (first w a k).2.1).stack, (called w a k op).1, ⟨h.2.2.1, h.2.2.2.1, rfl, rfl⟩,
    Prod.ext rfl h.2.2.2.2.1, ⟨h.2.2.2.2.2.1, h.2.2.2.2.2.2, rfl, rfl⟩, rfl⟩

theorem edited_reach {w : Whole Nat Nat Unit} {a : RunArgs Nat Nat Unit} {k : Nat}
    {op : SchedOp Nat Nat Unit} (h : Editable w a k op) (l : Nat) :
    Reach (Edited op) a (before w) false (editedRun w a k op l).1 (editedRun w a k op l).2.1
      (editedRun w a k op l).2.2 :=
  steps_reach (.env (run_reach h.1 _ k) h.2.1 (edited_first h)) rfl

/-- A scheduler for the graph in which 0 is a sender of 1, and 2 has no edge. -/
def looseTwo : Whole Nat Nat Unit :=
  Whole.new [(1, [0]), (2, [])] .standard none 1 demoWorld noOwners (fun _ => none)

/-- `add_graph_edge(1, 2)`. -/
def edgeToTwo : SchedOp Nat Nat Unit :=
  .add 1 (.structural ((GSC.addEdgeTo 2).toSCond (fun _ => []) 0))

/-- A scheduler for the graph 0 → 1. -/
def twoInRow : Whole Nat Nat Unit :=
  Whole.new [(1, [0])] .standard none 1 demoWorld noOwners (fun _ => none)

/-- `remove_graph_edge(0, 1)`. -/
def noEdgeToOne : SchedOp Nat Nat Unit := .add 1 dropEdge

/-- Runs for two passes. -/
def forTwoPasses : RunArgs Nat Nat Unit :=
  { id := none, esu := .leaf 10 (.afterNPasses 2 .environment_state_update)
    seq := .leaf 11 .never }

/-- `remove_condition(1)`. -/
def clearOne : SchedOp Nat Nat Unit := .removeOf 1

/-- `add_condition(1, Never())`. -/
def neverOne : SchedOp Nat Nat Unit := .add 1 (.basic (.leaf 5 .never))

/-- C96 as stated is false: if an edge is added during a pass, a node can be considered
again in that pass.  Here node 2 executes twice in the only pass, because the call of
`add_graph_edge(1, 2)` after the first set moves it behind the current position. -/
theorem C96_twice : ∃ (op : SchedOp Nat Nat Unit) (s0 s : Sys Nat Nat Unit)
    (a : RunArgs Nat Nat Unit) (h : History Nat Nat Unit),
    Reach (Edited op) a s0 false h s .returned ∧ s0.queue = [[0, 2], [1]] ∧
    s.queue = [[0], [1], [2]] ∧ passYields h = [[[0, 2], [1], [2]]] := by
  have h := edited_reach (w := looseTwo) (a := onePass) (k := 8) (op := edgeToTwo)
    (by decide +kernel) 40
  have e : (editedRun looseTwo onePass 8 edgeToTwo 40).2.2 = .returned := by decide +kernel
  rw [e] at h
  exact ⟨_, _, _, _, _, h, by decide +kernel, by decide +kernel, by decide +kernel⟩

/-- C96 as stated is false: if an edge is removed during a pass, a node can be left out of
that pass.  Here node 1 is considered only in the second pass, although the first one ended
without a termination condition being satisfied, because the call of
`remove_graph_edge(0, 1)` after the first set moves it before the current position. -/
theorem C96_skipped : ∃ (op : SchedOp Nat Nat Unit) (s0 s : Sys Nat Nat Unit)
    (a : RunArgs Nat Nat Unit) (h : History Nat Nat Unit),
    Reach (Edited op) a s0 false h s .returned ∧ s0.queue = [[0], [1]] ∧
    s.queue = [[0, 1]] ∧ passYields h = [[[0]], [[0, 1]]] ∧ setsConsidered h = [0, 0] := by
  have h := edited_reach (w := twoInRow) (a := forTwoPasses) (k := 6) (op := noEdgeToOne)
    (by decide +kernel) 40
  have e : (editedRun twoInRow forTwoPasses 6 noEdgeToOne 40).2.2 = .returned := by decide +kernel
  rw [e] at h
  exact ⟨_, _, _, _, _, h, by decide +kernel, by decide +kernel, by decide +kernel,
    by decide +kernel⟩

/-- C95 as stated is false: if the condition of a node is removed during a run, the run
raises `KeyError` when it comes to the node.  The default condition comes back only with the
next run, which starts without an exception. -/
theorem C95_key_error : ∃ (s0 s : Sys Nat Nat Unit) (a : RunArgs Nat Nat Unit)
    (h : History Nat Nat Unit),
    Reach (Edited (.removeOf 1)) a s0 false h s (.raised .keyError) ∧ yields h = [[0]] ∧
    Dict.get? s.conds 1 = none ∧ (s.start a).2 = .ok false ∧
    (Dict.get? (s.start a).1.conds 1).isSome := by
  have h := edited_reach (w := twoInRow) (a := forTwoPasses) (k := 6) (op := clearOne)
    (by decide +kernel) 40
  have e : (editedRun twoInRow forTwoPasses 6 clearOne 40).2.2 = .raised .keyError := by
    decide +kernel
  rw [e] at h
  refine ⟨_, _, _, _, h, by decide +kernel, ?_, by decide +kernel, by decide +kernel⟩
  have : (Dict.get? (editedRun twoInRow forTwoPasses 6 clearOne 40).2.1.conds 1).isNone := by
    decide +kernel
  simpa using this

/-- The history of the run in which the edge was removed. -/
def cutRun : History Nat Nat Unit := (editedRun twoInRow forTwoPasses 6 noEdgeToOne 40).1

/-- The hypotheses of `C96_whole_pass_partial` (and `C96_pass_partial`) are met by the second pass of the run
in which the edge was removed. -/
example : ∃ h1 seg h2 p p2, cutRun = h1 ++ p :: seg ++ p2 :: h2 ∧
    p.ev = .passStart ∧ (∀ e ∈ seg, e.ev ≠ .passStart) ∧ p2.ev = .stop ∧
    (∀ e ∈ seg ++ [p2], e.before.queue = [[0, 1]]) ∧ yields seg = [[0, 1]] := by
  refine ⟨cutRun.take 4, (cutRun.drop 5).take 4, [], cutRun[4]'(by decide +kernel),
    cutRun[9]'(by decide +kernel), ?_, by decide +kernel, by decide +kernel,
    by decide +kernel, by decide +kernel, by decide +kernel⟩
  have h9 : cutRun.drop 9 = [cutRun[9]'(by decide +kernel)] := by
    rw [List.drop_eq_getElem_cons (by decide +kernel)]
    congr 1
  have h5 : cutRun.drop 5 = (cutRun.drop 5).take 4 ++ [cutRun[9]'(by decide +kernel)] := by
    rw [← h9]
    have := List.take_append_drop 4 (cutRun.drop 5)
    rw [List.drop_drop] at this
    exact this.symm
  have h4 : cutRun = cutRun.take 4 ++ cutRun.drop 4 := (List.take_append_drop 4 cutRun).symm
  rw [List.drop_eq_getElem_cons (by decide +kernel), h5] at h4
  simpa using h4

/-- The hypotheses of `C95_added` and `C95_obeyed_partial` are met: after `add_condition(1, Never())`
during the run, node 1 does not execute any more. -/
example : Edited neverOne (first twoInRow forTwoPasses 6).2.1
      (seenIn (called twoInRow forTwoPasses 6 neverOne).1 (first twoInRow forTwoPasses 6).2.1) ∧
    passYields (editedRun twoInRow forTwoPasses 6 neverOne 40).1 = [[[0]], [[0]]] ∧
    passYields (first twoInRow forTwoPasses 40).1 = [[[0], [1]], [[0], [1]]] :=
  ⟨edited_first (by decide +kernel), by decide +kernel, by decide +kernel⟩

/-- The hypotheses of `C95_removed` and `C95_without_condition` are met. -/
example : Edited clearOne (first twoInRow forTwoPasses 6).2.1
      (seenIn (called twoInRow forTwoPasses 6 clearOne).1 (first twoInRow forTwoPasses 6).2.1) ∧
    (Dict.get? (first twoInRow forTwoPasses 6).2.1.conds 1).isSome ∧
    (editedRun twoInRow forTwoPasses 6 clearOne 2).1.map (fun e => e.ev) =
      [.passStart, .consider 0 [0], .add 0, .layer 0 [0] true, .consider 1 [1]] :=
  ⟨edited_first (by decide +kernel), by decide +kernel, by decide +kernel⟩

end Props
end GS

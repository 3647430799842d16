import Verif.Rates
import Verif.LifeDefault
/-!
# C61, C62: how often nodes execute
-/

set_option linter.unusedSectionVars false

namespace GS.Props
open Spec
variable {α κ W : Type _} [DecidableEq α] [DecidableEq κ]
variable {E : Sys α κ W → Sys α κ W → Prop} {a : RunArgs α κ W} {s0 s1 s : Sys α κ W}
variable {abs : Bool} {h : History α κ W} {pc : PC α}

/-- A yielded set lies in one consideration set. -/
theorem yielded_at (hr : Reach E a s0 abs h s pc) (hQ : Keeps E fun s => s.queue) {x : List α}
    (hx : x ∈ yields h) : ∃ i, ∀ n ∈ x, At s0.queue i n := by
  obtain ⟨e, he, hy⟩ := List.mem_filterMap.1 hx
  obtain ⟨h1, h2, hh⟩ := mem_split he
  rcases e with ⟨sb, ev, sa⟩
  cases ev with
  | emptyPass => cases hy; exact ⟨0, by simp⟩
  | layer i set shown =>
    have : set = x := by
      cases shown with
      | true => exact Option.some.inj hy
      | false => cases hy
    subst this
    obtain ⟨p, p', hr1, hs, _⟩ := hr.entry h1 _ h2 hh
    have hst := Sys.step_stepR hs
    refine ⟨i, fun n hn => ?_⟩
    have hc : ∃ c, p = .choosing c ∧ c.idx = i ∧ c.exec = set := by
      generalize hx : some (Event.layer i set shown) = ev at hst
      simp only at hst
      cases hst with
      | @yield c => cases hx; exact ⟨c, rfl, rfl, rfl⟩
      | @yieldAbs c => cases hx; exact ⟨c, rfl, rfl, rfl⟩
      | @silent c _ _ _ hne => cases hx; exact ⟨c, rfl, rfl, hne⟩
      | fails _ _ hx' => rcases hx' with rfl | ⟨_, rfl, _⟩ <;> cases hx
      | _ => cases hx
    obtain ⟨c, rfl, rfl, rfl⟩ := hc
    have ci := hr1.choice c rfl
    exact ⟨c.layer, by rw [← hr1.keepQueue hQ]; exact ci.queue, ci.sub n hn⟩
  | _ => cases hy

/-! ## C61 -/

/-- C61: `b` has the condition `EveryNCalls(d, n)`, `d` is in an earlier consideration set
and may have any condition, and no pass but the last one ended before `b` was considered.
At every execution of `b` there have been exactly `n` executions of `d` for each one of
`b`: `b` executes at the `n`-th, `2n`-th, `3n`-th, ... execution of `d`. -/
theorem C61_exactly (hr : Reach E a s0 abs h s pc) (hE : Leaves' E a)
    (hs1 : s0.start a = (s1, .ok abs)) (hq : s0.queue.flatten.Nodup) {b d : α} {n i j : Nat}
    (hn : 1 ≤ n) (hi : At s0.queue i d) (hj : At s0.queue j b) (hij : i < j) {o : OId}
    (hc : Dict.get? s1.conds b = some (.leaf o (.everyNCalls d n))) (ho : s1.store.owner o = some b)
    (hb : b ∈ s0.nodes) (hd : d ∈ s0.nodes) (hp : PassesReach j h)
    {l1 l2 : List (List α)} {x : List α} (hy : yields h = l1 ++ x :: l2) (hbx : b ∈ x) :
    setsWith d (l1 ++ [x]) = n * setsWith b (l1 ++ [x]) := by
  have hbd : d ≠ b := by rintro rfl; have := at_unique hq hi hj; omega
  obtain ⟨h1, e, h2, hh, _, _, _, hsel⟩ := hr.yieldEntry hy
  obtain ⟨p, p', _, _, hr'⟩ := hr.entry h1 e h2 hh
  have hnd : ∀ y ∈ l1 ++ [x], y.Nodup := fun y hy' => hr.yields_nodup y (by
    rw [hy]; rcases List.mem_append.1 hy' with h | h
    · exact List.mem_append_left _ h
    · simp at h; simp [h])
  have inv := hr'.everyN hE hs1 hq hn hi hj hij hc ho hb hd
    (Spec.PassesReach.prefix (h2 := h2) (by rw [hh] at hp; simpa using hp))
  have h1 := inv.1
  rw [hsel, count_flatten_sets hnd, count_flatten_sets hnd] at h1
  rw [h1]
  -- `d` is not in `x`
  have hdx : d ∉ x := by
    intro hdx
    obtain ⟨k, hk⟩ := yielded_at hr hE.queue (x := x) (by rw [hy]; simp)
    have e1 := at_unique hq (hk b hbx) hj
    have e2 := at_unique hq (hk d hdx) hi
    omega
  obtain ⟨x1, x2, rfl⟩ := List.append_of_mem hbx
  have : (since b ((l1 ++ [x1 ++ b :: x2]).flatten)).count d = 0 := by
    rw [List.count_eq_zero]
    intro hm
    apply hdx
    have e1 : (l1 ++ [x1 ++ b :: x2]).flatten = (l1.flatten ++ x1 ++ [b]) ++ x2 := by simp
    rw [e1] at hm
    have hx2 : ∀ y ∈ x2, (fun y => decide (y = b)) y = false := by
      intro y hy'
      have := hnd (x1 ++ b :: x2) (by simp)
      rw [List.nodup_append, List.nodup_cons] at this
      simp only [decide_eq_false_iff_not]
      rintro rfl
      exact this.2.1.1 hy'
    unfold since at hm
    rw [afterLast_append_of_none _ _ _ hx2, afterLast_snoc] at hm
    simp at hm
    simp [hm]
  omega

/-- C61: between passes, unless the last pass ended before `b` was considered, `b` has
executed as often as `n` goes into the number of executions of `d`. -/
theorem C61_between_passes (hr : Reach E a s0 abs h s pc) (hE : Leaves' E a)
    (hs1 : s0.start a = (s1, .ok abs)) (hq : s0.queue.flatten.Nodup) {b d : α} {n i j : Nat}
    (hn : 1 ≤ n) (hi : At s0.queue i d) (hj : At s0.queue j b) (hij : i < j) {o : OId}
    (hc : Dict.get? s1.conds b = some (.leaf o (.everyNCalls d n))) (ho : s1.store.owner o = some b)
    (hb : b ∈ s0.nodes) (hd : d ∈ s0.nodes) (hp : PassesReach j h)
    (hpc : pc = .outer ∨ pc = .returned) (hl : InPass h → j ∈ setsConsidered (currentPass h)) :
    setsWith b (yields h) = setsWith d (yields h) / n := by
  have inv := hr.everyN hE hs1 hq hn hi hj hij hc ho hb hd hp
  obtain ⟨r, h1, hsel⟩ := hr.pending
  have hr0 : r = [] := by rcases hpc with rfl | rfl <;> exact h1
  rw [hr0, List.append_nil] at hsel
  unfold EveryInv at inv
  rw [hsel, count_flatten_sets hr.yields_nodup, count_flatten_sets hr.yields_nodup] at inv
  obtain ⟨e1, e2, e3⟩ := inv
  have e4 : (since b (yields h).flatten).count d < n := by
    rcases hpc with rfl | rfl <;> exact e3 hl
  symm
  rw [Nat.div_eq_iff hn, Nat.mul_comm]
  constructor <;> omega

/-- C61: with the default termination conditions every pass but the last one gets to every
consideration set, so that the theorems apply. -/
theorem C61_default_passes (ha : DefaultTermination a) (hr : Reach E a s0 abs h s pc)
    (hT : Keeps E fun s => Dict.get? s.countsTotal a.id) (hN : Keeps E fun s => s.nodes)
    (hQ : Keeps E fun s => s.queue) {j : Nat} (hj : j < s0.queue.length) : PassesReach j h :=
  hr.defaultPasses ha hT hN hQ hj

/-- `demo`: node 2 has `EveryNCalls(0, 2)`. -/
example : Leaves' (fun _ _ : Sys Nat Nat Unit => False) demoArgs ∧ demo.queue.flatten.Nodup ∧
    At demo.queue 0 0 ∧ At demo.queue 1 2 ∧
    (∃ s1, demo.start demoArgs = (s1, .ok false) ∧
      Dict.get? s1.conds 2 = some (.leaf 0 (.everyNCalls 0 2)) ∧ s1.store.owner 0 = some 2) ∧
    2 ∈ demo.nodes ∧ 0 ∈ demo.nodes ∧ PassesReach 1 (demoAfter 40).1 ∧
    yields (demoAfter 40).1 = [[0], [1], [0]] ++ [1, 2] :: [] ∧ (demoAfter 40).2.2 = .returned ∧
    1 ∈ setsConsidered (currentPass (demoAfter 40).1) := by
  refine ⟨⟨fun _ _ h => h.elim, fun _ _ h => h.elim, fun _ _ h => h.elim, fun _ _ h => h.elim,
    fun _ _ h => h.elim⟩, by decide, ⟨[0], by decide⟩, ⟨[1, 2], by decide⟩,
    ⟨_, Prod.ext rfl demo_start, rfl, rfl⟩, by decide, by decide,
    C61_default_passes ⟨10, 11, rfl, rfl⟩ (demo_reach (fun _ _ => False) 40) (fun _ _ h => h.elim)
      (fun _ _ h => h.elim) (fun _ _ h => h.elim) (by decide), demo_run.1, demo_run.2,
    by decide +kernel⟩

/-! ## C62 -/

/-- C62: the nodes in `G` have the conditions `Always()`, `EveryNCalls(d, k)`, `All` of these,
or no condition, and wait only for nodes of `G` in earlier consideration sets. Whenever the
consideration set of such a node is dealt with, in the `p`-th pass of the run, the node
executes iff its rate divides `p`. -/
theorem C62_when (hr : Reach E a s0 abs h s pc) (hE : Leaves' E a)
    (hq : s0.queue.flatten.Nodup) (hqn : ∀ n ∈ s0.queue.flatten, n ∈ s0.nodes)
    {G : α → Prop} {rate : α → Nat} {j : Nat} (hG : Rated s0 G rate j) (hp : PassesReach j h)
    {h1 h2 : History α κ W} {e : Entry α κ W} (hh : h = h1 ++ e :: h2) {i : Nat} {set : List α}
    {shown : Bool} (he : e.ev = .layer i set shown) {n : α} (hn : G n) (hat : At s0.queue i n) :
    n ∈ set ↔ rate n ∣ passes h1 := by
  obtain ⟨p, p', hr1, hs, hr2⟩ := hr.entry h1 e h2 hh
  have hp2 : PassesReach j (h1 ++ [e]) :=
    Spec.PassesReach.prefix (h2 := h2) (by rw [hh] at hp; simpa using hp)
  have inv1 := hr1.rates hE hq hqn hG hp2.prefix
  have inv2 := hr2.rates hE hq hqn hG hp2
  have hst := Sys.step_stepR hs
  have hc : ∃ c, p = .choosing c ∧ c.idx = i ∧ c.exec = set ∧ Alive p' ∧
      Dealt (h1 ++ [e]) n c.idx p' := by
    generalize hx : some e.ev = ev at hst
    rw [he] at hx
    generalize e.after = sa at hst
    cases hst with
    | @yield c => cases hx; exact ⟨c, rfl, rfl, rfl, trivial, Nat.le_refl _⟩
    | @yieldAbs c => cases hx; exact ⟨c, rfl, rfl, rfl, trivial, Nat.le_refl _⟩
    | @silent c _ _ _ hne => cases hx; exact ⟨c, rfl, rfl, hne, trivial, Nat.lt_succ_self _⟩
    | fails _ _ hx' => rcases hx' with rfl | ⟨_, rfl, _⟩ <;> cases hx
    | _ => cases hx
  obtain ⟨c, rfl, rfl, rfl, hal, hdl⟩ := hc
  refine ⟨fun hx => inv1.exec c rfl n hx hn, fun hdv => ?_⟩
  apply Classical.byContradiction
  intro hnx
  have e1 := (inv1.count trivial n c.idx hn hat).2 (by
    rintro (h | ⟨_, h⟩)
    · omega
    · exact hnx h)
  have e2 := (inv2.count hal n c.idx hn hat).1 hdl
  have hsel : selections (h1 ++ [e]) = selections h1 := by rw [selections_snoc, he]; simp [Event.add?]
  have hpas : passes (h1 ++ [e]) = passes h1 := by
    unfold passes; rw [List.countP_append, List.countP_singleton]; simp [isPassStart, he]
  rw [hsel, hpas, e1] at e2
  have hpos : 1 ≤ rate n := by
    obtain ⟨_, l, _, _, _, h4, _⟩ := hG n hn
    rw [h4]; exact slowest_pos _ _
  have := div_pred_of_dvd hpos (inPass_pos hr1.inPass) hdv
  omega

/-- C62: between passes such a node has executed as often as its rate goes into the number
of passes; if the last pass ended before the node was considered, into the number of those
before it. -/
theorem C62_counts (hr : Reach E a s0 abs h s pc) (hE : Leaves' E a)
    (hq : s0.queue.flatten.Nodup) (hqn : ∀ n ∈ s0.queue.flatten, n ∈ s0.nodes)
    {G : α → Prop} {rate : α → Nat} {j : Nat} (hG : Rated s0 G rate j) (hp : PassesReach j h)
    (hpc : pc = .outer ∨ pc = .returned) {n : α} {i : Nat} (hn : G n) (hat : At s0.queue i n) :
    ((InPass h → i ∈ setsConsidered (currentPass h)) →
      setsWith n (yields h) = passes h / rate n) ∧
    (InPass h → i ∉ setsConsidered (currentPass h) →
      setsWith n (yields h) = (passes h - 1) / rate n) := by
  have inv := hr.rates hE hq hqn hG hp
  obtain ⟨r, hpe, hsel⟩ := hr.pending
  have hr0 : r = [] := by rcases hpc with rfl | rfl <;> exact hpe
  rw [hr0, List.append_nil] at hsel
  have := inv.count (by rcases hpc with rfl | rfl <;> trivial) n i hn hat
  unfold CountAt at this
  rw [hsel, count_flatten_sets hr.yields_nodup] at this
  refine ⟨fun h1 => this.1 ?_, fun h1 h2 => this.2 ?_⟩
  · rcases hpc with hpc | hpc <;> subst hpc <;> exact h1
  · rcases hpc with hpc | hpc <;> subst hpc <;> exact fun h3 => h2 (h3 h1)

/-- Every node has a rate. -/
def AllRated (s : Sys α κ W) (rate : α → Nat) : Prop :=
  Rated s (fun n => n ∈ s.nodes) rate (s.queue.length - 1)

section
variable (ha : DefaultTermination a) (hE : ∀ s s', E s s' → Agree a.id s s')
  (hq : s0.queue.flatten.Nodup) (hqn : ∀ n, n ∈ s0.queue.flatten ↔ n ∈ s0.nodes)
  {rate : α → Nat} (hG : AllRated s0 rate)
include ha hE hq hqn hG

theorem agree_leaves : Leaves' E a :=
  have := ha; have := hq; have := hqn; have := hG
  ⟨fun s s' he => (hE s s' he).view.queue, fun s s' he => (hE s s' he).view.nodes,
    fun s s' he => (hE s s' he).conds, fun s s' he => (hE s s' he).store.owner,
    fun s s' he => (hE s s' he).view.useable⟩

theorem reaches_all (hr : Reach E a s0 abs h s pc) : PassesReach (s0.queue.length - 1) h := by
  rcases Nat.eq_zero_or_pos s0.queue.length with h0 | h0
  · intro h1 e h2 hh he hin
    exfalso
    obtain ⟨p, p', hr1, hs, _⟩ := hr.entry h1 e h2 hh
    have hst := Sys.step_stepR hs
    have key : ∃ st, Going e.before a st := by
      generalize hx : some e.ev = ev at hst
      generalize e.after = sa at hst
      rw [he] at hx
      cases hst with
      | pass hg => exact ⟨_, hg⟩
      | fails _ _ hx' => rcases hx' with rfl | ⟨_, rfl, _⟩ <;> cases hx
      | _ => cases hx
    obtain ⟨st, hg⟩ := key
    obtain ⟨n, hn, _⟩ := hr1.defaultGoing ha (fun s s' he => (hE s s' he).view.total)
      (fun s s' he => (hE s s' he).view.nodes) hg
    have := (hqn n).2 hn
    rw [List.eq_nil_of_length_eq_zero h0] at this
    cases this
  · exact hr.defaultPasses ha (fun s s' he => (hE s s' he).view.total)
      (fun s s' he => (hE s s' he).view.nodes) (fun s s' he => (hE s s' he).view.queue) (by omega)

/-- The number of passes of such a run. -/
theorem passes_le (hr : Reach E a s0 abs h s pc) {M : Nat} (hM : ∀ n ∈ s0.nodes, rate n ≤ M) :
    passes h ≤ M := by
  refine hr.ind (P := fun h _ pc => passes h ≤ M) ?_ ?_ ?_
  · intro s _; exact Nat.zero_le _
  · intro h s s' pc pc' ev hr ih hst
    have hL := agree_leaves ha hE hq hqn hG
    cases ev with
    | none => rw [ext_none]; exact ih
    | some x =>
      rw [passes_ext]
      by_cases hx : x = .passStart
      · subst hx
        have key : pc = .outer ∧ ∃ st, Going s a st := by
          generalize hx : some Event.passStart = ev at hst
          cases hst with
          | pass hg => exact ⟨rfl, _, hg⟩
          | fails _ _ hx' => rcases hx' with rfl | ⟨_, rfl, _⟩ <;> cases hx
          | _ => cases hx
        obtain ⟨rfl, st, hg⟩ := key
        have hT : Keeps E fun s => Dict.get? s.countsTotal a.id := fun s s' he => (hE s s' he).view.total
        obtain ⟨n, hn, hns⟩ := hr.defaultGoing ha hT hL.nodes hg
        have inv := hr.rates hL hq (fun n hn => (hqn n).1 hn) hG (reaches_all ha hE hq hqn hG hr)
        obtain ⟨i, hi⟩ := exists_at ((hqn n).2 hn)
        have hlt := (List.getElem?_eq_some_iff.1 hi.choose_spec.1).1
        have e1 := (inv.count trivial n i hn hi).1 (fun hin => by
          rcases hr.passEnded ha hT hL.nodes hL.queue hin with h3 | h3
          · exact h3 i hlt
          · exact absurd (h3 n hn) hns)
        rw [List.count_eq_zero.2 hns] at e1
        have hpos : 1 ≤ rate n := by
          obtain ⟨_, l, _, _, _, h4, _⟩ := hG n hn
          rw [h4]; exact slowest_pos _ _
        have h5 : passes h < rate n := by
          have := (Nat.div_eq_zero_iff_lt hpos).1 e1.symm
          exact this
        have := hM n hn
        simp; omega
      · rw [if_neg hx]; exact ih
  · intro h s s' pc _ ih _ _; exact ih

/-- Such a run does not raise. -/
theorem rated_safe {log} (hc : Shows (s0.clock a.id) log) (hr : Reach E a s0 false h s pc) :
    ∀ e, pc ≠ .raised e := by
  generalize hab : false = ab at hr
  induction hr with
  | start hs => simp
  | @step abs h s s' pc pc' ev hr hs ih =>
    subst hab
    have hpc := ih rfl
    have hL := agree_leaves ha hE hq hqn hG
    obtain ⟨s1, hs1⟩ := hr.started
    have hT : Keeps E fun s => Dict.get? s.countsTotal a.id := fun s s' he => (hE s s' he).view.total
    obtain ⟨f, _, hf, _⟩ := C11_run_count hr hT
    obtain ⟨u, hu, _⟩ := hr.useable hL.useable
    obtain ⟨l0, hl0, _⟩ := (Sys.start_ok hs1).list
    have hl := hr.execs (fun s s' he => (hE s s' he).view.list) hpc hs1 hl0
    obtain ⟨lg, hlg⟩ := (hr.clockAt (fun s s' he => (hE s s' he).view.clock) hc).shows hpc
    refine Sys.step_safe (fun st _ _ => ⟨_, by rw [hr.defaultEsu ha hT hL.nodes]⟩)
        (fun d st _ _ => ⟨_, by rw [seq_never ha]⟩) hlg hf hu hl ?_ hpc hs
    rintro c rfl n hn
    have ci := hr.choice c rfl
    obtain ⟨d, hdd⟩ := ci.todo
    have hat : At s0.queue c.idx n :=
      ⟨c.layer, by rw [← hr.keepQueue hL.queue]; exact ci.queue, by rw [hdd]; simp [hn]⟩
    have hmem := (hqn n).1 (At.mem hat)
    obtain ⟨i, l, _, _, h3, _, h5⟩ := hG n hmem
    obtain ⟨cd, c1, c2⟩ := h3.started hs1 hmem
    have hns := hr.keepNodes hL.nodes
    refine ⟨by rw [hns]; exact hmem, cd, by rw [hr.keepConds hL.conds hs1]; exact c1, fun st ho _ => ?_⟩
    rw [c2.eval (ho.trans (hr.keepOwner hL.owner hs1)) hu (by rw [hns]; exact hmem)
      (fun p hp => by rw [hns]; exact (h5 p hp).1)]
    exact ⟨_, rfl⟩
  | env hr _ _ ih => exact ih hab

/-- C62: a run with the default termination conditions of a scheduler all of whose nodes have
rates makes no more passes than the largest rate; when it has returned it made exactly that
many. -/
theorem C62_passes (hr : Reach E a s0 abs h s pc) {M : Nat} (hM : ∀ n ∈ s0.nodes, rate n ≤ M)
    (hM' : ∃ n ∈ s0.nodes, rate n = M) :
    passes h ≤ M ∧ (pc = .returned → passes h = M) := by
  have hle := passes_le ha hE hq hqn hG hr hM
  refine ⟨hle, ?_⟩
  rintro rfl
  apply Nat.le_antisymm hle
  have hL := agree_leaves ha hE hq hqn hG
  have hT : Keeps E fun s => Dict.get? s.countsTotal a.id := fun s s' he => (hE s s' he).view.total
  obtain ⟨n, hn, rfl⟩ := hM'
  obtain ⟨set, h1, h2⟩ := C15_all_have_run ha hr hT hL.nodes n hn
  obtain ⟨i, hi⟩ := exists_at ((hqn n).2 hn)
  obtain ⟨c1, c2⟩ := C62_counts hr hL hq (fun n hn => (hqn n).1 hn) hG
    (reaches_all ha hE hq hqn hG hr) (.inr rfl) hn hi
  have hpos : 0 < setsWith n (yields h) := List.countP_pos_iff.2 ⟨set, h1, by simpa using h2⟩
  have hrp : 1 ≤ rate n := by
    obtain ⟨_, l, _, _, _, h4, _⟩ := hG n hn
    rw [h4]; exact slowest_pos _ _
  by_cases hin : InPass h → i ∈ setsConsidered (currentPass h)
  · rw [c1 hin, Nat.div_pos_iff] at hpos; exact hpos.2
  · obtain ⟨h3, h4⟩ := Classical.not_imp.1 hin
    rw [c2 h3 h4, Nat.div_pos_iff] at hpos
    omega

/-- C62: such a run, left alone, returns. -/
theorem C62_returns {log} (hc : Shows (s0.clock a.id) log) {s1}
    (hs : s0.start a = (s1, .ok false)) {M : Nat} (hM : ∀ n ∈ s0.nodes, rate n ≤ M)
    (hM' : ∃ n ∈ s0.nodes, rate n = M) :
    ∃ k h s, exec s0 a k = some (false, h, s, .returned) ∧ passes h = M := by
  have hF : ∀ s s' : Sys α κ W, (fun _ _ => False : Sys α κ W → Sys α κ W → Prop) s s' →
      Agree a.id s s' := fun _ _ h => h.elim
  obtain ⟨k, h, s, pc, h1, h2⟩ := bounded_ends hs (M * (s0.queue.length + 1)) (by
    intro j h s pc hj
    have hr : Reach (fun _ _ => False) a s0 false h s pc := steps_reach (.start hs) hj
    have hle := passes_le ha hF hq hqn hG hr hM
    have hy := hr.yieldsAt fun _ _ h => h.elim
    have hfin : (yields h).length ≤ passes h * (s0.queue.length + 1) := by
      cases pc with
      | inner i ch =>
        obtain ⟨k', hk, _, e2⟩ := hr.considered_range fun _ _ h => h.elim
        cases hk; simp only [YieldsAt] at hy; omega
      | choosing c =>
        obtain ⟨k', hk, _, e2⟩ := hr.considered_range fun _ _ h => h.elim
        cases hk; simp only [YieldsAt] at hy; omega
      | yielded i ch =>
        obtain ⟨k', hk, _, e2⟩ := hr.considered_range fun _ _ h => h.elim
        cases hk; simp only [YieldsAt] at hy; omega
      | _ => exact hy
    exact Nat.le_trans hfin (Nat.mul_le_mul_right _ hle))
  have hr : Reach (fun _ _ => False) a s0 false h s pc := steps_reach (.start hs) h1
  have hsafe := rated_safe ha hF hq hqn hG hc hr
  have hpc : pc = .returned := by
    cases pc with
    | returned => rfl
    | raised e => exact absurd rfl (hsafe e)
    | _ => cases h2
  subst hpc
  refine ⟨k, h, s, by unfold exec; rw [hs]; simp [h1], ?_⟩
  exact (C62_passes ha hF hq hqn hG hr hM hM').2 rfl

end

/-- Graph `0 -> 1`, `0 -> 2`, `1 -> 3`, `2 -> 3`; node 1 has `EveryNCalls(0, 2)`, node 2 has
`EveryNCalls(0, 3)`; the others have no condition. -/
def rated : Sys Nat Nat Unit :=
  (((Sys.new [(3, [1, 2]), (1, [0]), (2, [0])] .standard none 1 demoWorld).alloc 2).addBasic 1
    (.leaf 0 (.everyNCalls 0 2))).addBasic 2 (.leaf 1 (.everyNCalls 0 3))

/-- The rates of its nodes. -/
def ratedRate : Nat → Nat
  | 0 => 1
  | 1 => 2
  | _ => 3

theorem rated_all : AllRated rated ratedRate := by
  intro n hn
  have hn : n = 0 ∨ n = 1 ∨ n = 2 ∨ n = 3 := by
    have : rated.nodes = [3, 1, 2, 0] ∨ ∀ x ∈ rated.nodes, x = 0 ∨ x = 1 ∨ x = 2 ∨ x = 3 := by decide
    rcases this with h | h
    · rw [h] at hn; simp at hn; omega
    · exact h n hn
  rcases hn with rfl | rfl | rfl | rfl
  · exact ⟨0, [], by decide, ⟨[0], by decide⟩, .inr ⟨rfl, [], rfl, rfl⟩, rfl, by simp⟩
  · exact ⟨1, [(0, 2)], by decide, ⟨[1, 2], by decide⟩,
      .inl ⟨_, rfl, .every 0 0 2 (by decide) ⟨by decide, rfl⟩⟩, rfl, by
        intro p hp; simp at hp; subst hp; exact ⟨by decide, 0, by decide, [0], by decide⟩⟩
  · exact ⟨1, [(0, 3)], by decide, ⟨[1, 2], by decide⟩,
      .inl ⟨_, rfl, .every 1 0 3 (by decide) ⟨by decide, rfl⟩⟩, rfl, by
        intro p hp; simp at hp; subst hp; exact ⟨by decide, 0, by decide, [0], by decide⟩⟩
  · exact ⟨2, [(1, 1), (2, 1)], by decide, ⟨[3], by decide⟩, .inr ⟨rfl, [1, 2], rfl, rfl⟩, rfl, by
        intro p hp; simp at hp
        rcases hp with rfl | rfl
        · exact ⟨by decide, 1, by decide, [1, 2], by decide⟩
        · exact ⟨by decide, 1, by decide, [1, 2], by decide⟩⟩

/-- The largest rate is 3, so the run makes 3 passes. -/
example : DefaultTermination demoArgs ∧ rated.queue.flatten.Nodup ∧
    (∀ n, n ∈ rated.queue.flatten ↔ n ∈ rated.nodes) ∧ AllRated rated ratedRate ∧
    Shows (rated.clock demoArgs.id) [] ∧ (rated.start demoArgs).2 = .ok false ∧
    (∀ n ∈ rated.nodes, ratedRate n ≤ 3) ∧ (∃ n ∈ rated.nodes, ratedRate n = 3) ∧
    yields (runAfter rated demoArgs 90).1 = [[0], [0], [1], [0], [2], [3]] ∧
    (runAfter rated demoArgs 90).2.2 = .returned ∧ passes (runAfter rated demoArgs 90).1 = 3 := by
  refine ⟨⟨10, 11, rfl, rfl⟩, by decide, ?_, rated_all, .new, by decide +kernel, by decide,
    ⟨3, by decide⟩, by decide +kernel, by decide +kernel, by decide +kernel⟩
  intro n
  rw [show rated.queue.flatten = [0, 1, 2, 3] by decide]
  have h1 : ∀ x ∈ rated.nodes, x ∈ [0, 1, 2, 3] := by decide
  have h2 : ∀ x ∈ [0, 1, 2, 3], x ∈ rated.nodes := by decide
  exact ⟨h2 n, h1 n⟩

end GS.Props

import Verif.RunClock
import Verif.Life
import Verif.Props.RunEnds
import Verif.Props.RunCounts
/-!
# Runs that cannot fail, and the default schedule

For C09: a run of a scheduler without explicit conditions yields its consideration queue.
-/

set_option linter.unusedSectionVars false

namespace GS
open Spec Props TimeScale
variable {α κ W β : Type _} [DecidableEq α] [DecidableEq κ]
variable {E : Sys α κ W → Sys α κ W → Prop} {a : RunArgs α κ W} {s0 s s' : Sys α κ W}
variable {abs : Bool} {h : History α κ W} {pc pc' : PC α} {ev : Option (Event α)}

/-- The condition does not raise, for given owners of condition objects. -/
def NoError (v : View α κ W) (id : Option κ) (st0 : Store α κ) (c : Cond α κ W) : Prop :=
  ∀ st : Store α κ, st.owner = st0.owner → st.fresh = st0.fresh → ∃ b, (eval v id c st).1 = .ok b

namespace Sys

theorem continues_safe (h1 : NoError s.toView a.id s.store a.esu)
    (h2 : NoError s.toView a.id s.store a.seq) :
    ∃ st b, s.continues a = (s.putStore st, .ok b) ∧ st.owner = s.store.owner ∧
      st.fresh = s.store.fresh := by
  obtain ⟨b1, e1⟩ := h1 s.store rfl rfl
  have o1 := (eval_store s.toView a.id a.esu s.store).owner
  have f1 := (eval_store s.toView a.id a.esu s.store).fresh
  unfold continues evalCond
  rw [e1]
  cases b1 with
  | true => exact ⟨_, false, rfl, o1, f1⟩
  | false =>
    obtain ⟨b2, e2⟩ := h2 (eval s.toView a.id a.esu s.store).2 o1 f1
    dsimp only
    rw [e2]
    exact ⟨_, !b2, rfl, (eval_store s.toView a.id a.seq _).owner.trans o1,
      (eval_store s.toView a.id a.seq _).fresh.trans f1⟩

theorem incrClock_safe {ts : TimeScale} {log} (hc : Shows (s.clock a.id) log) (ht : ts ≠ life) :
    ∃ c, s.incrClock a.id ts = .ok (s.setClock a.id c) ∧ Shows c (log ++ [ts]) := by
  obtain ⟨c, h1, h2⟩ := hc.incr ht
  exact ⟨c, by unfold incrClock; rw [h1], h2⟩

/-- A step outside absolute-time mode does not raise if no condition does, and counters,
list and clock exist. -/
theorem step_safe (hesu : NoError s.toView a.id s.store a.esu)
    (hseq : ∀ d, NoError { s.toView with clocks := d } a.id s.store a.seq)
    {log} (hcl : Shows (s.clock a.id) log)
    {f u l} (hf : Dict.get? s.countsTotal a.id = some f)
    (hu : Dict.get? s.countsUseable a.id = some u) (hx : Dict.get? s.execList a.id = some l)
    (htodo : ∀ c, pc = .choosing c → ∀ n ∈ c.todo, n ∈ s.nodes ∧
      ∃ cond, Dict.get? s.conds n = some cond ∧ NoError s.toView a.id s.store cond)
    (hp : ∀ e, pc ≠ .raised e) (h : s.step a false pc = (s', pc', ev)) :
    ∀ e, pc' ≠ .raised e := by
  have hseq0 : NoError s.toView a.id s.store a.seq := hseq s.clocks
  have hend : ∀ st ch s' pc' ev, (s.putStore st).endPass a false ch = (s', pc', ev) →
      ∀ e, pc' ≠ .raised e := by
    intro st ch s' pc' ev he
    unfold endPass at he
    split at he
    · unfold record at he
      rw [show Dict.get? (s.putStore st).execList a.id = some l from hx] at he
      simp only [Bool.false_eq_true, if_false, Prod.mk.injEq] at he
      rw [← he.2.1]; intro e; simp
    · obtain ⟨c, h1, _⟩ := incrClock_safe (s := s.putStore st) (a := a) (ts := pass) hcl (by simp)
      rw [h1] at he
      simp only [Prod.mk.injEq] at he
      rw [← he.2.1]; intro e; simp
  cases pc with
  | outer =>
    unfold step at h
    obtain ⟨st, b, h1, h2⟩ := continues_safe hesu hseq0
    rw [h1] at h
    cases b with
    | true =>
      dsimp only at h
      unfold resetTotal at h
      rw [show Dict.get? (s.putStore st).countsTotal a.id = some f from hf] at h
      simp only [Prod.mk.injEq] at h
      rw [← h.2.1]; intro e; simp
    | false =>
      dsimp only at h
      unfold finish at h
      have hfin : ∀ t : Sys α κ W, (∃ d, t.toView = { s.toView with clocks := d }) →
          t.store.owner = s.store.owner → t.store.fresh = s.store.fresh → ∃ t' b, t.evalCond a.id a.seq = (t', .ok b) := by
        intro t ⟨d, hd⟩ ho hf
        obtain ⟨b, hb⟩ := hseq d t.store ho hf
        unfold evalCond
        rw [hd, hb]
        exact ⟨_, b, rfl⟩
      cases hs : a.skip with
      | true =>
        rw [hs] at h
        obtain ⟨t, b, hb⟩ := hfin (s.putStore st) ⟨s.clocks, rfl⟩ h2.1 h2.2
        simp only [if_true, hb, Prod.mk.injEq] at h
        rw [← h.2.1]; intro e; simp
      | false =>
        rw [hs] at h
        obtain ⟨c, h3, _⟩ := incrClock_safe (s := s.putStore st) (a := a)
          (ts := environment_state_update) hcl (by simp)
        obtain ⟨t, b, hb⟩ := hfin ((s.putStore st).setClock a.id c) ⟨_, rfl⟩ h2.1 h2.2
        simp only [Bool.false_eq_true, if_false, h3, hb, Prod.mk.injEq] at h
        rw [← h.2.1]; intro e; simp
  | inner idx ch =>
    simp only [step] at h
    split at h
    · exact hend s.store ch _ _ _ h
    · obtain ⟨st, b, h1, h2⟩ := continues_safe hesu hseq0
      rw [h1] at h
      cases b with
      | true => simp only [Prod.mk.injEq] at h; rw [← h.2.1]; intro e; simp
      | false => exact hend st ch _ _ _ h
  | choosing c =>
    have ht := htodo c rfl
    simp only [step] at h
    unfold choose at h
    split at h
    · split at h
      · simp only [Prod.mk.injEq] at h; rw [← h.2.1]; intro e; simp
      · unfold endChoice at h
        dsimp only at h
        split at h
        · unfold record at h
          rw [hx] at h
          simp only [Bool.false_eq_true, if_false, Prod.mk.injEq] at h
          rw [← h.2.1]; intro e; simp
        · simp only [Prod.mk.injEq] at h; rw [← h.2.1]; intro e; simp
    · rename_i n ns hcons
      split at h
      · simp only [Prod.mk.injEq] at h; rw [← h.2.1]; intro e; simp
      · obtain ⟨hn, cond, hc, hno⟩ := ht n (by rw [hcons]; simp)
        obtain ⟨b, hb⟩ := hno s.store rfl rfl
        unfold considerNode evalCond at h
        rw [hc] at h
        dsimp only at h
        rw [hb] at h
        cases b with
        | false => simp only [Prod.mk.injEq] at h; rw [← h.2.1]; intro e; simp
        | true =>
          dsimp only at h
          unfold fire at h
          dsimp only at h
          rw [hf] at h
          dsimp only at h
          rw [if_pos hn, hu] at h
          simp only [Prod.mk.injEq] at h; rw [← h.2.1]; intro e; simp
  | yielded idx ch =>
    unfold step at h
    obtain ⟨c, h1, _⟩ := incrClock_safe (a := a) (ts := consideration_set_execution) hcl (by simp)
    rw [h1] at h
    simp only [Prod.mk.injEq] at h; rw [← h.2.1]; intro e; simp
  | yieldedEmpty =>
    unfold step at h
    obtain ⟨c, h1, h2⟩ := incrClock_safe (a := a) (ts := consideration_set_execution) hcl (by simp)
    rw [h1] at h
    dsimp only at h
    obtain ⟨c', h3, _⟩ := incrClock_safe (s := s.setClock a.id c) (a := a) (ts := pass)
      (by rw [clock_setClock]; exact h2) (by simp)
    rw [h3] at h
    simp only [Prod.mk.injEq] at h; rw [← h.2.1]; intro e; simp
  | returned => simp only [step, Prod.mk.injEq] at h; rw [← h.2.1]; intro e; simp
  | raised e => exact absurd rfl (hp e)

end Sys


/-! ## Default schedules -/

/-- A scheduler whose consideration sets partition its nodes, whose senders are in earlier
sets, and whose conditions are all implicit or implicit ones made explicit. -/
structure DefaultSched (s : Sys α κ W) : Prop where
  nonempty : ∀ l ∈ s.queue, l ≠ []
  nodup : s.queue.flatten.Nodup
  mem : ∀ n, n ∈ s.queue.flatten ↔ n ∈ s.nodes
  deps : ∀ j n, At s.queue j n → ∃ deps, Dict.get? s.graph n = some deps ∧
    ∀ d ∈ deps, ∃ i, i < j ∧ At s.queue i d
  conds : ∀ n ∈ s.nodes, Dict.get? s.conds n = none ∨ ∃ deps c, Dict.get? s.graph n = some deps ∧
    Dict.get? s.conds n = some c ∧ IsDefault s.store n deps c
  plain : ∀ p ∈ s.conds, p.2.isAbsolute = false

theorem IsDefault.grow {st st' : Store α κ} {n : α} {deps : List α} {c : Cond α κ W}
    (h : IsDefault st n deps c) (ho : st'.owner = st.owner) (hf : st.fresh ≤ st'.fresh) :
    IsDefault st' n deps c := by
  obtain ⟨o, k1, k2, k3, k4⟩ := h.ex
  exact ⟨o, k1, Nat.le_trans k2 hf, fun d hd => by rw [ho]; exact k3 d hd,
    fun hl x y1 y2 => by rw [ho]; exact k4 hl x y1 y2⟩

theorem ClockAt.shows {log0 py c} (h : ClockAt a log0 py c pc) (hp : ∀ e, pc ≠ .raised e) :
    ∃ log, Shows c log := by
  cases pc with
  | outer => exact ⟨_, h⟩
  | returned => exact ⟨_, h⟩
  | inner => obtain ⟨_, _, _, h⟩ := h; exact ⟨_, h⟩
  | choosing => obtain ⟨_, _, _, h⟩ := h; exact ⟨_, h⟩
  | yielded => obtain ⟨_, _, _, _, h⟩ := h; exact ⟨_, h⟩
  | yieldedEmpty => obtain ⟨_, _, _, _, h⟩ := h; exact ⟨_, h⟩
  | raised e => exact absurd rfl (hp e)

theorem since_of_not_mem {n : α} {l : List α} (h : n ∉ l) : since n l = l := by
  unfold since afterLast
  have key : ∀ m : List α, n ∉ m → m.takeWhile (fun x => !decide (x = n)) = m := by
    intro m
    induction m with
    | nil => intro _; rfl
    | cons x m ih =>
      intro hm
      have hx : x ≠ n := by rintro rfl; exact hm (by simp)
      rw [List.takeWhile_cons, ih (fun hx => hm (by simp [hx]))]
      simp [hx]
  rw [key _ (by simpa using h), List.reverse_reverse]

/-- Where a default run is, given the queue and the sets yielded so far. -/
def WholeInv (q ys : List (List α)) : PC α → Prop
  | .outer => ys = [] ∨ (ys = q ∧ q ≠ [])
  | .inner k ch => ys = q.take k ∧ k ≤ q.length ∧ q ≠ [] ∧ (ch = true ↔ 0 < k)
  | .choosing c => ys = q.take c.idx ∧ q[c.idx]? = some c.layer ∧
      ((c.exec ++ c.todo = c.layer ∧ c.again = !c.exec.isEmpty) ∨
        (c.exec = c.layer ∧ c.again = false))
  | .yielded k ch => k < q.length ∧ ys = q.take (k + 1) ∧ ch = true
  | .yieldedEmpty => False
  | .returned => ys = q
  | .raised _ => False

/-- What a default run knows in every state. -/
structure WholeFacts (a : RunArgs α κ W) (q : List (List α)) (sel : List α) (s : Sys α κ W) :
    Prop where
  queue : s.queue = q
  flat : ∀ n, n ∈ s.nodes ↔ n ∈ q.flatten
  total : ∃ f, Dict.get? s.countsTotal a.id = some f ∧
    ∀ n, f .environment_state_update n = sel.count n
  useable : ∃ u, Dict.get? s.countsUseable a.id = some u ∧ UseInv sel u
  list : ∃ l, Dict.get? s.execList a.id = some l
  conds : ∀ j n, At q j n → ∃ deps c, Dict.get? s.conds n = some c ∧ IsDefault s.store n deps c ∧
    ∀ d ∈ deps, ∃ i, i < j ∧ At q i d

theorem At.mem {q : List (List α)} {j : Nat} {n : α} (h : At q j n) : n ∈ q.flatten := by
  obtain ⟨l, h1, h2⟩ := h
  exact List.mem_flatten.2 ⟨l, List.mem_of_getElem? h1, h2⟩

theorem At.mem_take {q : List (List α)} {j k : Nat} {n : α} (h : At q j n) (hk : j < k) :
    n ∈ (q.take k).flatten := by
  obtain ⟨l, h1, h2⟩ := h
  refine List.mem_flatten.2 ⟨l, ?_, h2⟩
  apply List.mem_of_getElem? (i := j)
  rw [List.getElem?_take, if_pos hk]; exact h1

theorem exists_at {q : List (List α)} {n : α} (h : n ∈ q.flatten) : ∃ j, At q j n := by
  obtain ⟨l, h1, h2⟩ := List.mem_flatten.1 h
  obtain ⟨i, hi, he⟩ := List.getElem_of_mem h1
  exact ⟨i, l, by rw [List.getElem?_eq_getElem hi, he], h2⟩

theorem take_nodup {q : List (List α)} {k : Nat} {l : List α} (hn : q.flatten.Nodup)
    (hl : q[k]? = some l) : ((q.take k).flatten ++ l).Nodup := by
  have e : q = q.take k ++ l :: q.drop (k + 1) := by
    obtain ⟨hk, rfl⟩ := List.getElem?_eq_some_iff.1 hl
    rw [List.getElem_cons_drop, List.take_append_drop]
  rw [e] at hn
  rw [List.flatten_append, List.flatten_cons, ← List.append_assoc] at hn
  exact (List.nodup_append.1 hn).1

section
variable {q : List (List α)} {sel : List α}

theorem WholeFacts.esu (w : WholeFacts a q sel s) (ha : DefaultTermination a) (st : Store α κ) :
    eval s.toView a.id a.esu st = (.ok (decide (∀ n ∈ q.flatten, n ∈ sel)), st) := by
  obtain ⟨o, o', e1, _⟩ := ha
  obtain ⟨f, h1, h2⟩ := w.total
  rw [e1, allHaveRun_eval o st h1]
  congr 3
  apply propext
  constructor
  · intro hx n hn
    have := hx n ((w.flat n).2 hn)
    rw [h2] at this
    exact List.count_pos_iff.1 this
  · intro hx n hn
    rw [h2]
    exact List.count_pos_iff.2 (hx n ((w.flat n).1 hn))

theorem seq_never (ha : DefaultTermination a) (v : View α κ W) (st : Store α κ) :
    eval v a.id a.seq st = (.ok false, st) := by
  obtain ⟨o, o', _, e2⟩ := ha
  rw [e2]; simp [eval, evalLeaf]

theorem WholeFacts.going (w : WholeFacts a q sel s) (ha : DefaultTermination a) {st}
    (hg : Going s a st) : ∃ n ∈ q.flatten, n ∉ sel := by
  obtain ⟨st1, h1, _⟩ := hg
  rw [w.esu ha] at h1
  simp only [Prod.mk.injEq, Except.ok.injEq, decide_eq_false_iff_not] at h1
  obtain ⟨h1, _⟩ := h1
  exact Classical.not_forall.1 h1 |>.imp fun n hn => Classical.not_imp.1 hn

theorem WholeFacts.done (w : WholeFacts a q sel s) (ha : DefaultTermination a) {st}
    (hd : Done s a st) : ∀ n ∈ q.flatten, n ∈ sel := by
  rcases hd with hd | ⟨st1, h1, h2⟩
  · rw [w.esu ha] at hd
    simp only [Prod.mk.injEq, Except.ok.injEq, decide_eq_true_eq] at hd
    exact hd.1
  · rw [seq_never ha] at h2; simp at h2

theorem WholeFacts.cond (w : WholeFacts a q sel s) {j n} (hj : At q j n) (hn : n ∉ sel) {cond}
    (hc : Dict.get? s.conds n = some cond) (hk : ∀ d i, i < j → At q i d → d ∈ sel)
    (st : Store α κ) (ho : st.owner = s.store.owner) (hfr : st.fresh = s.store.fresh) :
    (eval s.toView a.id cond st).1 = .ok true := by
  obtain ⟨deps, c, h1, h2, h3⟩ := w.conds j n hj
  rw [hc] at h1; injection h1 with h1; subst h1
  obtain ⟨u, hu, ui⟩ := w.useable
  have hds : ∀ d ∈ deps, d ∈ s.nodes := by
    intro d hd
    obtain ⟨i, _, hi⟩ := h3 d hd
    exact (w.flat d).2 (At.mem hi)
  have key := (h2.grow (st' := st) ho (Nat.le_of_eq hfr.symm)).eval (v := s.toView) (id := a.id) hu
    ((w.flat n).2 (At.mem hj)) hds
  rw [key]
  simp only [Except.ok.injEq, decide_eq_true_eq]
  intro d hd
  obtain ⟨i, hi, hi2⟩ := h3 d hd
  have hdm := hk d i hi hi2
  have hne : d ≠ n := by rintro rfl; exact hn hdm
  rw [ui.diff d n hne, since_of_not_mem hn]
  exact List.count_pos_iff.2 hdm

/-- The facts and the position of a default run are preserved by steps. -/
theorem WholeInv.step (w : WholeFacts a q sel s) (ha : DefaultTermination a)
    (hne : ∀ l ∈ q, l ≠ []) (hnd : q.flatten.Nodup) {ys : List (List α)} {r : List α}
    (hp : Pending pc r) (hsel : sel = ys.flatten ++ r)
    (hci : ∀ c, pc = .choosing c → ∃ d, c.layer = d ++ c.todo)
    (hi : WholeInv q ys pc) (hst : StepR a false s pc s' pc' ev) (hsafe : ∀ e, pc' ≠ .raised e) :
    WholeInv q (ys ++ (ev.bind Event.yield?).toList) pc' := by
  have left : ∀ k, ys = q.take k → (∀ n ∈ q.flatten, n ∈ ys.flatten) → q.length ≤ k := by
    intro k hk hall
    apply Nat.le_of_not_lt
    intro hlt
    have hl : q[k]? = some q[k] := List.getElem?_eq_getElem hlt
    obtain ⟨n, hn⟩ := List.exists_mem_of_ne_nil _ (hne q[k] (List.getElem_mem hlt))
    have h1 := hall n (At.mem ⟨q[k], hl, hn⟩)
    rw [hk] at h1
    exact (List.nodup_append.1 (take_nodup hnd hl)).2.2 n h1 n hn rfl
  have onLeave : ∀ k ch st, pc = .inner k ch → Leaves s a k st → ys = q ∧ q ≠ [] ∧ ch = true := by
    rintro k ch st rfl hl
    obtain ⟨h1, h2, h3, h4⟩ := hi
    cases hp
    have hlen : q.length ≤ k := by
      rcases hl with ⟨hq, _⟩ | ⟨_, hd⟩
      · rw [w.queue] at hq; exact List.getElem?_eq_none_iff.1 hq
      · have := w.done ha hd
        rw [hsel, List.append_nil] at this
        exact left k h1 this
    refine ⟨by rw [h1, List.take_of_length_le hlen], h3, h4.2 ?_⟩
    have : q.length ≠ 0 := fun h => h3 (List.eq_nil_of_length_eq_zero h)
    omega
  have stop : ∀ st, pc = .outer → Done s a st → ys = q := by
    rintro st rfl hd
    cases hp
    have := w.done ha hd
    rw [hsel, List.append_nil] at this
    rcases hi with hi | hi
    · have hlen := left 0 (by simp [hi]) this
      rw [hi]
      exact (List.eq_nil_of_length_eq_zero (by omega)).symm
    · exact hi.1
  cases hst with
  | pass hg =>
    cases hp
    obtain ⟨n, h1, h2⟩ := w.going ha hg
    rw [hsel, List.append_nil] at h2
    rcases hi with hi | ⟨hi, _⟩
    · refine ⟨by simp [hi, Event.yield?], Nat.zero_le _, ?_, by simp⟩
      rintro rfl; simp at h1
    · rw [hi] at h2; exact absurd h1 h2
  | stopSkip hd => exact (List.append_nil ys).trans (stop _ rfl hd)
  | stopIncr hd => exact (List.append_nil ys).trans (stop _ rfl hd)
  | passEnd hl =>
    obtain ⟨h1, h2, _⟩ := onLeave _ _ _ rfl hl
    exact .inr ⟨(List.append_nil ys).trans h1, h2⟩
  | emptyYield hl =>
    have := (onLeave _ _ _ rfl hl).2.2
    cases this
  | consider hq hg =>
    rw [w.queue] at hq
    exact ⟨(List.append_nil ys).trans hi.1, hq, .inl ⟨rfl, rfl⟩⟩
  | again ht hag =>
    obtain ⟨h1, h2, h3⟩ := hi
    refine ⟨(List.append_nil ys).trans h1, h2, .inr ⟨?_, rfl⟩⟩
    rcases h3 with ⟨h3, _⟩ | ⟨h3, h4⟩
    · rw [ht, List.append_nil] at h3; exact h3
    · exact h3
  | @skip c n ns ht hn =>
    obtain ⟨h1, h2, h3⟩ := hi
    refine ⟨(List.append_nil ys).trans h1, h2, .inr ?_⟩
    rcases h3 with ⟨h3, _⟩ | h3
    · have := (List.nodup_append.1 (take_nodup hnd h2)).2.1
      rw [← h3, ht] at this
      exact absurd rfl ((List.nodup_append.1 this).2.2 n hn n (by simp))
    · exact h3
  | @reject c n ns cond st ht hn hc he =>
    obtain ⟨h1, h2, h3⟩ := hi
    cases hp
    exfalso
    obtain ⟨d, hd⟩ := hci c rfl
    have hnl : n ∈ c.layer := by rw [hd, ht]; simp
    have hnsel : n ∉ sel := by
      rw [hsel, List.mem_append, h1]
      rintro (hx | hx)
      · exact (List.nodup_append.1 (take_nodup hnd h2)).2.2 n hx n hnl rfl
      · exact hn hx
    have := w.cond ⟨c.layer, h2, hnl⟩ hnsel hc
      (fun d i hi hat => by rw [hsel, h1]; exact List.mem_append_left _ (At.mem_take hat hi))
      s.store rfl rfl
    rw [he] at this; cases this
  | @add c n ns cond st f u ht hn =>
    obtain ⟨h1, h2, h3⟩ := hi
    refine ⟨(List.append_nil ys).trans h1, h2, ?_⟩
    rcases h3 with ⟨h3, h4⟩ | ⟨h3, h4⟩
    · exact .inl ⟨by rw [← h3, ht]; simp, by simp⟩
    · obtain ⟨d, hd⟩ := hci c rfl
      exact absurd (by rw [h3, hd, ht]; simp) hn
  | @yield c l ht hag hab hne' =>
    obtain ⟨h1, h2, h3⟩ := hi
    have hlt := (List.getElem?_eq_some_iff.1 h2).1
    refine ⟨hlt, ?_, rfl⟩
    have hex : c.exec = c.layer := by
      rcases h3 with ⟨h3, h4⟩ | ⟨h3, _⟩
      · rw [ht, List.append_nil] at h3; exact h3
      · exact h3
    rw [h1, List.take_add_one, h2, hex]
    rfl
  | yieldAbs ht hag hab => cases hab
  | @silent c ht hag hab hne' =>
    obtain ⟨h1, h2, h3⟩ := hi
    exfalso
    apply hne c.layer (List.mem_of_getElem? h2)
    rcases h3 with ⟨h3, h4⟩ | ⟨h3, _⟩
    · rw [ht, hne'] at h3; exact h3.symm
    · rw [← h3, hne']
  | resume =>
    obtain ⟨h1, h2, h3⟩ := hi
    refine ⟨(List.append_nil ys).trans h2, h1, ?_, by simp [h3]⟩
    rintro rfl; simp at h1
  | resumeEmpty => exact hi.elim
  | returned => exact (List.append_nil ys).trans hi
  | raised => exact hi.elim
  | fails => exact absurd rfl (hsafe _)

end

/-- Facts about every state of a default run. -/
theorem Reach.wholeFacts (hd : DefaultSched s0) (hE : ∀ s s', E s s' → Agree a.id s s')
    (hr : Reach E a s0 abs h s pc) (hpc : ∀ e, pc ≠ .raised e) :
    WholeFacts a s0.queue (selections h) s := by
  obtain ⟨s1, hs1, hc1, ho1, hf1⟩ := hr.conds_start (fun s s' he => (hE s s' he).conds)
    (fun s s' he => (hE s s' he).store.owner)
    (fun s s' he => Nat.le_of_eq (hE s s' he).store.fresh.symm)
  obtain ⟨x1, x2, x3, x4⟩ := (Sys.start_ok hs1).conds_spec
  have hn := hr.keepNodes (fun s s' he => (hE s s' he).view.nodes)
  obtain ⟨f, cur, g1, g2, g3, g4, g5⟩ := C11_run_count hr (fun s s' he => (hE s s' he).view.total)
  obtain ⟨l0, hl0, _⟩ := (Sys.start_ok hs1).list
  refine ⟨hr.keepQueue (fun s s' he => (hE s s' he).view.queue), ?_, ⟨f, g1, g5⟩,
    hr.useable (fun s s' he => (hE s s' he).view.useable),
    ⟨_, hr.execs (fun s s' he => (hE s s' he).view.list) hpc hs1 hl0⟩, ?_⟩
  · intro n; rw [hn, hd.mem]
  · intro j n hj
    obtain ⟨deps, k1, k2⟩ := hd.deps j n hj
    have hmem : n ∈ s0.nodes := (hd.mem n).1 (At.mem hj)
    have : ∃ c, Dict.get? s1.conds n = some c ∧ IsDefault s1.store n deps c := by
      rcases hd.conds n hmem with h0 | ⟨deps', c, e1, e2, e3⟩
      · obtain ⟨deps', c, e1, e2, e3⟩ := x3 n hmem h0
        rw [k1] at e1; injection e1 with e1; subst e1
        exact ⟨c, e2, e3⟩
      · rw [k1] at e1; injection e1 with e1; subst e1
        exact ⟨c, x2 n c e2, e3.ext x1⟩
    obtain ⟨c, e1, e2⟩ := this
    exact ⟨deps, c, by rw [hc1]; exact e1, e2.grow ho1 hf1, k2⟩

/-- Where a default run is, in every state. -/
theorem Reach.whole (hd : DefaultSched s0) (ha : DefaultTermination a)
    (hE : ∀ s s', E s s' → Agree a.id s s') {log} (hc : Shows (s0.clock a.id) log)
    (hr : Reach E a s0 false h s pc) : WholeInv s0.queue (yields h) pc := by
  generalize hab : false = ab at hr
  induction hr with
  | start hs => exact .inl rfl
  | @step abs h s s' pc pc' ev hr hs ih =>
    subst hab
    have hi := ih rfl
    have hpc : ∀ e, pc ≠ .raised e := by rintro e rfl; exact hi
    have w := Reach.wholeFacts hd hE hr hpc
    obtain ⟨r, hp, hsel⟩ := hr.pending
    obtain ⟨f, hf, _⟩ := w.total
    obtain ⟨u, hu, _⟩ := w.useable
    obtain ⟨l, hl⟩ := w.list
    obtain ⟨lg, hlg⟩ := (hr.clockAt (fun s s' he => (hE s s' he).view.clock) hc).shows hpc
    have hsafe : ∀ e, pc' ≠ .raised e := by
      refine Sys.step_safe (fun st _ _ => ⟨_, by rw [w.esu ha]⟩)
        (fun d st _ _ => ⟨_, by rw [seq_never ha]⟩) hlg hf hu hl ?_ hpc hs
      rintro c rfl n hn
      have ci := hr.choice c rfl
      obtain ⟨d, hdd⟩ := ci.todo
      have hat : At s0.queue c.idx n := ⟨c.layer, by rw [← w.queue]; exact ci.queue, by rw [hdd]; simp [hn]⟩
      have hmem := (w.flat n).2 (At.mem hat)
      obtain ⟨deps, cond, e1, e2, e3⟩ := w.conds _ n hat
      refine ⟨hmem, cond, e1, fun st ho hfr => ?_⟩
      rw [(e2.grow (st' := st) ho (Nat.le_of_eq hfr.symm)).eval (v := s.toView) (id := a.id) hu hmem
        (fun d hd => by obtain ⟨i, _, hi⟩ := e3 d hd; exact (w.flat d).2 (At.mem hi))]
      exact ⟨_, rfl⟩
    have := hi.step w ha hd.nonempty hd.nodup hp hsel (fun c hc => (hr.choice c hc).todo)
      (Sys.step_stepR hs) hsafe
    cases ev with
    | none => simpa using this
    | some x => simpa [yields_append, yields_single] using this
  | env hr _ _ ih => exact ih hab

theorem WholeInv.length {q ys : List (List α)} (h : WholeInv q ys pc) : ys.length ≤ q.length := by
  cases pc with
  | outer =>
    rcases h with h | h
    · simp [h]
    · simp [h.1]
  | inner => rw [h.1, List.length_take]; omega
  | choosing => rw [h.1, List.length_take]; omega
  | yielded => rw [h.2.1, List.length_take]; omega
  | yieldedEmpty => exact h.elim
  | returned => rw [show ys = q from h]; exact Nat.le_refl _
  | raised => exact h.elim

/-- A default run, left alone, returns. -/
theorem whole_returns (hd : DefaultSched s0) (ha : DefaultTermination a) {log}
    (hc : Shows (s0.clock a.id) log) {s1} (hs : s0.start a = (s1, .ok false)) :
    ∃ k h s, exec s0 a k = some (false, h, s, .returned) ∧ yields h = s0.queue := by
  have key : ∀ m b h s pc j, s0.queue.length - (yields h).length ≤ m → stepBound s.queue pc ≤ b →
      pc.suspended = false → steps a false j [] s1 .outer = (h, s, pc) →
      ∃ k h s, steps a false k [] s1 .outer = (h, s, .returned) ∧ yields h = s0.queue := by
    intro m
    induction m using Nat.strongRecOn with
    | _ m ihm =>
    intro b
    induction b using Nat.strongRecOn with
    | _ b ihb =>
    intro h s pc j hm hb hp hj
    have inv : ∀ {j h s pc}, steps a false j [] s1 .outer = (h, s, pc) →
        WholeInv s0.queue (yields h) pc := fun hj =>
      Reach.whole (E := fun _ _ => False) hd ha (fun _ _ h => h.elim) hc (steps_reach (.start hs) hj)
    have next : ∀ {j h s pc s' pc' ev}, steps a false j [] s1 .outer = (h, s, pc) →
        s.step a false pc = (s', pc', ev) →
        steps a false (j + 1) [] s1 .outer = (ext h s ev s', s', pc') := by
      intro j h s pc s' pc' ev h1 h2
      rw [steps_add, h1]; simp only [steps, h2]
    have fin : ∀ {j h s pc}, steps a false j [] s1 .outer = (h, s, pc) → pc.final = true →
        ∃ k h s, steps a false k [] s1 .outer = (h, s, .returned) ∧ yields h = s0.queue := by
      intro j h s pc h1 h2
      have hi := inv h1
      cases pc with
      | returned => exact ⟨j, h, s, h1, hi⟩
      | raised => exact hi.elim
      | _ => cases h2
    have hi := inv hj
    cases hf : pc.final with
    | true => exact fin hj hf
    | false =>
    have hr : Reach (fun _ _ => False) a s0 false h s pc := steps_reach (.start hs) hj
    rcases hst : s.step a false pc with ⟨s2, pc2, ev⟩
    have hj2 := next hj hst
    have hsr := Sys.step_stepR hst
    have hi2 := inv hj2
    by_cases hx : pc2.suspended = true
    · -- suspended: one more set
      have hev : ev.bind Event.yield? ≠ none := by
        cases hsr <;> simp_all [PC.suspended, Event.yield?]
      have hlen : (yields (ext h s ev s2)).length = (yields h).length + 1 := by
        cases ev with
        | none => simp at hev
        | some x =>
          rw [ext_some, yields_snoc]
          cases hy : x.yield? with
          | none => simp [hy] at hev
          | some y => simp
      have hle := hi2.length
      rcases hst3 : s2.step a false pc2 with ⟨s3, pc3, ev3⟩
      have hj3 := next hj2 hst3
      have hsr3 := Sys.step_stepR hst3
      have hp3 : pc3.suspended = false ∧ ev3 = none := by
        have hi3 := inv hj3
        cases hsr3 with
        | fails => exact hi3.elim
        | _ => first | exact ⟨rfl, rfl⟩ | cases hx
      obtain ⟨hp3, rfl⟩ := hp3
      refine ihm (s0.queue.length - (yields (ext h s ev s2)).length) (by omega) _ _ s3 pc3 _ ?_
        (Nat.le_refl _) hp3 hj3
      rw [ext_none]; exact Nat.le_refl _
    · have hs2 : pc2.suspended = false := by simpa using hx
      rcases stepBound_decr hr hsr hp hf with (hy | hy) | ⟨hy, _⟩
      · exact absurd hy hx
      · exact fin hj2 hy
      · refine ihb (stepBound s2.queue pc2) ?_ _ s2 pc2 _ ?_ (Nat.le_refl _) hs2 hj2
        · rw [hsr.frame.queue]; omega
        · have : (yields h).length ≤ (yields (ext h s ev s2)).length := by
            cases ev with
            | none => simp
            | some x => rw [ext_some, yields_snoc]; simp
          omega
  obtain ⟨k, h, s, h1, h2⟩ := key _ _ [] s1 .outer 0 (Nat.le_refl _) (Nat.le_refl _) rfl rfl
  exact ⟨k, h, s, by unfold exec; rw [hs]; simp [h1], h2⟩

end GS

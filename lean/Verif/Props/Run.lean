import Verif.RunFix
import Verif.Props.Demo
import Verif.Props.Graph
/-!
# C06-C08, C14: what `run()` puts into the yielded sets

`Reach E a s0 abs h s pc`: a run with arguments `a`, started in the scheduler state `s0`,
has produced the history `h`, and the scheduler's state is `s`; while the run is
suspended at a `yield`, anything in `E` may happen to the scheduler (other runs, user
code).
-/

set_option linter.unusedSectionVars false

namespace GS
open Spec
variable {α κ W β : Type _} [DecidableEq α] [DecidableEq κ]
variable {E : Sys α κ W → Sys α κ W → Prop} {a : RunArgs α κ W} {s0 s : Sys α κ W}
variable {abs : Bool} {h : History α κ W} {pc : PC α}

/-- An entry for a completed set comes from the end of a choice. -/
theorem Reach.layerEntry (hr : Reach E a s0 abs h s pc) {h1 h2 : History α κ W} {e : Entry α κ W}
    (hh : h = h1 ++ e :: h2) {i set shown} (he : e.ev = .layer i set shown) :
    ∃ c, Reach E a s0 abs h1 e.before (.choosing c) ∧ c.idx = i ∧ c.exec = set ∧ c.todo = [] ∧
      c.again = false ∧ (shown = false → set = [] ∧ abs = false) ∧
      (shown = true → abs = false → set ≠ []) := by
  obtain ⟨p, p', hr1, hs, _⟩ := hr.entry h1 e h2 hh
  have hst := Sys.step_stepR hs
  generalize hev : some e.ev = ev at hst
  generalize e.after = sa at hst
  cases hst with
  | @yield c l ht hag ha hne hx =>
    injection hev with hev; rw [he] at hev; cases hev
    exact ⟨c, hr1, rfl, rfl, ht, hag, by simp, fun _ _ => hne⟩
  | @yieldAbs c l ts ht hag ha hx hts =>
    injection hev with hev; rw [he] at hev; cases hev
    exact ⟨c, hr1, rfl, rfl, ht, hag, by simp, fun _ h => by rw [ha] at h; cases h⟩
  | @silent c ht hag ha hne =>
    injection hev with hev; rw [he] at hev; cases hev
    exact ⟨c, hr1, rfl, hne, ht, hag, fun _ => ⟨rfl, ha⟩, by simp⟩
  | fails _ _ hx =>
    rcases hx with rfl | ⟨_, rfl, _⟩
    · cases hev
    · injection hev with hev; rw [he] at hev; cases hev
  | _ => first | cases hev | (injection hev with hev; rw [he] at hev; cases hev)

theorem mem_split {l : List β} {x : β} (h : x ∈ l) : ∃ a b, l = a ++ x :: b :=
  List.append_of_mem h

theorem chosen_mem {h : History α κ W} {p : Nat × List α} (hp : p ∈ chosen h) :
    ∃ e ∈ h, ∃ shown, e.ev = .layer p.1 p.2 shown := by
  unfold chosen at hp
  rw [List.mem_filterMap] at hp
  obtain ⟨e, he, hp⟩ := hp
  refine ⟨e, he, ?_⟩
  cases hev : e.ev with
  | layer i set shown => rw [hev] at hp; simp at hp; subst hp; exact ⟨shown, rfl⟩
  | _ => rw [hev] at hp; simp at hp

namespace Props

/-- C06: within a stretch of the history without a new pass, the yielded (non-empty) sets
are duplicate-free subsets of consideration sets at strictly increasing positions. -/
theorem C06_one_layer_in_order (hr : Reach E a s0 abs h s pc)
    (hE : Keeps E (fun s => s.queue)) {h1 seg h2 : History α κ W} (hh : h = h1 ++ seg ++ h2)
    (hseg : ∀ e ∈ seg, e.ev ≠ .passStart) :
    ∃ ps : List (Nat × List α),
      ps.map Prod.snd = (yields seg).filter (fun set => decide (set ≠ [])) ∧
      (ps.map Prod.fst).Pairwise (· < ·) ∧
      ∀ p ∈ ps, p.2.Nodup ∧ ∀ n ∈ p.2, At s0.queue p.1 n := by
  obtain ⟨s', p, hr1⟩ := hr.prefix hh
  obtain ⟨k, _, hk⟩ := hr1.layers
  have hcp : currentPass (h1 ++ seg) = currentPass h1 ++ seg := by
    unfold currentPass
    exact afterLast_append_of_none _ _ _ (fun e he => by simpa [isPassStart] using hseg e he)
  rw [hcp] at hk
  have hk' : (chosen (currentPass h1)).map Prod.fst ++ (chosen seg).map Prod.fst = List.range k := by
    rw [← List.map_append, ← hk]; unfold chosen; rw [List.filterMap_append]
  have hpw : ((chosen seg).map Prod.fst).Pairwise (· < ·) := by
    have := List.pairwise_lt_range (n := k)
    rw [← hk', List.pairwise_append] at this
    exact this.2.1
  have hent : ∀ e ∈ seg, ∀ i set shown, e.ev = .layer i set shown →
      (shown = false → set = []) ∧ set.Nodup ∧ ∀ n ∈ set, At s0.queue i n := by
    intro e he i set shown hev
    obtain ⟨u, v, huv⟩ := mem_split he
    obtain ⟨c, hc, rfl, rfl, _, _, hsh, _⟩ :=
      hr1.layerEntry (h1 := h1 ++ u) (h2 := v) (by rw [huv]; simp) hev
    have ci := hc.choice c rfl
    refine ⟨fun x => (hsh x).1, ci.nodup, fun n hn => ⟨c.layer, ?_, ci.sub n hn⟩⟩
    rw [← hc.keepQueue hE]; exact ci.queue
  refine ⟨(chosen seg).filter (fun p => decide (p.2 ≠ [])), ?_, ?_, ?_⟩
  · clear hk hk' hcp hpw hh hseg hr1
    induction seg with
    | nil => rfl
    | cons e seg ih =>
      have ih := ih (fun e he => hent e (List.mem_cons_of_mem _ he))
      have he := hent e (List.mem_cons_self ..)
      have e1 : chosen (e :: seg) = chosen [e] ++ chosen seg := by
        unfold chosen; rw [← List.filterMap_append]; rfl
      have e2 : yields (e :: seg) = yields [e] ++ yields seg := by
        rw [← yields_append]; rfl
      rw [e1, e2, List.filter_append, List.filter_append, List.map_append, ih]
      congr 1
      rw [yields_single]
      cases hev : e.ev with
      | layer i set shown =>
        cases shown with
        | true => by_cases hs : set = [] <;> simp [chosen, hev, Event.yield?, hs]
        | false => have := (he i set false hev).1 rfl; simp [chosen, hev, Event.yield?, this]
      | _ => simp [chosen, hev, Event.yield?]
  · exact hpw.sublist ((List.filter_sublist).map _)
  · intro p hp
    have hp := (List.mem_filter.1 hp).1
    obtain ⟨e, he, shown, hev⟩ := chosen_mem hp
    exact (hent e he p.1 p.2 shown hev).2

/-- C06, consequence: in standard mode (the queue is the layering of the graph), after a
set with a receiver neither that set nor a later one of the same pass contains a sender
of it. -/
theorem C06_senders_before_receivers (g : Graph α) (hg : Dict.WF g) (hc : ¬ HasCycle g)
    (hq : s0.queue = queueOf (baseGraph g))
    (hr : Reach E a s0 abs h s pc)
    (hE : Keeps E (fun s => s.queue)) {h1 seg h2 : History α κ W} (hh : h = h1 ++ seg ++ h2)
    (hseg : ∀ e ∈ seg, e.ev ≠ .passStart)
    {l1 l2 : List (List α)} {set : List α} (hy : yields seg = l1 ++ set :: l2)
    {snd rcv : α} (he : Edge g snd rcv) (hne : snd ≠ rcv) (hrc : rcv ∈ set) :
    snd ∉ set ∧ ∀ set' ∈ l2, snd ∉ set' := by
  obtain ⟨ps, h1', h2', h3'⟩ := C06_one_layer_in_order hr hE hh hseg
  have hf : (yields seg).filter (fun set => decide (set ≠ [])) =
      l1.filter (fun set => decide (set ≠ [])) ++ set :: l2.filter (fun set => decide (set ≠ [])) := by
    have : set ≠ [] := fun e => by rw [e] at hrc; simp at hrc
    rw [hy, List.filter_append, List.filter_cons, if_pos (by simpa using this)]
  rw [hf] at h1'
  obtain ⟨p1, p2, rfl, hp1, hp2⟩ := List.map_eq_append_iff.1 h1'
  obtain ⟨p, p3, rfl, hpset, hp3⟩ := List.map_eq_cons_iff.1 hp2
  have hpr : At s0.queue p.1 rcv := (h3' p (by simp)).2 rcv (by rw [hpset]; exact hrc)
  rw [hq] at hpr
  have key : ∀ q ∈ p :: p3, snd ∈ q.2 → False := by
    intro q hq' hs
    have hqs : At s0.queue q.1 snd := (h3' q (by
      rcases List.mem_cons.1 hq' with rfl | hx
      · simp
      · simp [hx])).2 snd hs
    rw [hq] at hqs
    have hlt := C02_senders_first g hg hc snd rcv he hne q.1 p.1 hqs hpr
    rcases List.mem_cons.1 hq' with rfl | hx
    · exact Nat.lt_irrefl _ hlt
    · rw [List.map_append, List.map_cons, List.pairwise_append, List.pairwise_cons] at h2'
      have := h2'.2.1.1 q.1 (List.mem_map.2 ⟨q, hx, rfl⟩)
      omega
  constructor
  · intro hs; exact key p (by simp) (by rw [hpset]; exact hs)
  · intro set' hs' hs
    have : set' ∈ p3.map Prod.snd := by
      rw [hp3, List.mem_filter]
      refine ⟨hs', ?_⟩
      have : set' ≠ [] := fun e => by rw [e] at hs; simp at hs
      simpa using this
    obtain ⟨q, hq', hqs⟩ := List.mem_map.1 this
    exact key q (by simp [hq']) (by rw [hqs]; exact hs)

example : Reach (fun _ _ => False) demoArgs demo false (demoAfter 40).1 (demoAfter 40).2.1
      (demoAfter 40).2.2 ∧ demo.queue = queueOf (baseGraph [(1, [0]), (2, [0])]) ∧
    yields (currentPass (demoAfter 40).1) = [[0], [1, 2]] ∧
    Edge ([(1, [0]), (2, [0])] : Graph Nat) 0 2 := by
  refine ⟨demo_reach _ 40, by decide, by decide +kernel, ⟨(2, [0]), by decide, rfl, by decide⟩⟩

/-- C07: every node of a yielded set was added while its condition was satisfied, in the
state resulting from everything before, including the nodes added to the same set
before it. -/
theorem C07_sound (hr : Reach E a s0 abs h s pc) {h1 h2 : History α κ W} {e : Entry α κ W}
    (hh : h = h1 ++ e :: h2) {i : Nat} {set : List α} {shown : Bool}
    (he : e.ev = .layer i set shown) :
    ∃ es : History α κ W, (∃ c0 pre layer, c0.ev = .consider i layer ∧ h1 = pre ++ c0 :: es) ∧
      es.map (fun x => x.ev) = set.map Event.add ∧
      ∀ x ∈ es, ∀ n, x.ev = .add n → NodeCond x.before a.id n true := by
  obtain ⟨c, hc, rfl, rfl, _, _, _, _⟩ := hr.layerEntry hh he
  have ci := hc.choice c rfl
  refine ⟨afterLast isConsider h1, ?_, ?_, ?_⟩
  · have := hc.ind (P := fun h s pc => ∀ c, pc = .choosing c →
      ∃ c0 pre layer, c0.ev = .consider c.idx layer ∧ h = pre ++ c0 :: afterLast isConsider h)
      (by intro s _ c hc; cases hc)
      (by
        intro h s s' pc pc' ev hr ih hst c' hc'
        cases hst with
        | @consider idx changed st layer hq hg =>
          cases hc'
          refine ⟨⟨s, .consider idx layer, s.putStore st⟩, h, layer, rfl, ?_⟩
          rw [ext_some, afterLast_snoc]; simp [isConsider]
        | @again c => cases hc'; rw [ext_none]; exact ih c rfl
        | @skip c => cases hc'; rw [ext_none]; exact ih c rfl
        | @reject c => cases hc'; rw [ext_none]; exact ih c rfl
        | add =>
          cases hc'
          obtain ⟨c0, pre, layer, e1, e2⟩ := ih _ rfl
          refine ⟨c0, pre, layer, e1, ?_⟩
          rw [ext_some, afterLast_snoc]
          simp only [isConsider, Bool.false_eq_true, if_false]
          rw [← List.cons_append, ← List.append_assoc, ← e2]
        | _ => cases hc')
      (by intro h s s' pc _ ih hp _ c hc; subst hc; simp [PC.suspended] at hp)
    exact this c rfl
  · have ha := ci.adds
    rw [← ci.sel]
    generalize afterLast isConsider h1 = es at ha
    induction es with
    | nil => rfl
    | cons x es ih =>
      obtain ⟨n, hn⟩ := ha x (by simp)
      have := ih (fun e he => ha e (by simp [he]))
      rw [List.map_cons, this, hn]
      simp [selections, hn, Event.add?]
  · intro x hx n hn
    obtain ⟨pre, hpre, _, _⟩ := afterLast_split isConsider h1
    obtain ⟨u, v, huv⟩ := mem_split hx
    have hsplit : h = (pre ++ u) ++ x :: (v ++ e :: h2) := by
      rw [hh, hpre, huv]; simp
    obtain ⟨p, p', _, hs, _⟩ := hr.entry _ _ _ hsplit
    have hst := Sys.step_stepR hs
    rw [hn] at hst
    generalize hev : (some (Event.add n)) = ev at hst
    generalize x.after = sa at hst
    cases hst with
    | @add c n' ns cond st f u ht hn' hc' he' hf hu hm =>
      injection hev with hev; cases hev
      exact ⟨cond, hc', by unfold Evaluates; rw [he']⟩
    | fails _ _ hx =>
      rcases hx with rfl | ⟨_, rfl, _⟩ <;> cases hev
    | _ => cases hev

example : ∃ h1 h2 e, (demoAfter 40).1 = h1 ++ e :: h2 ∧ e.ev = Event.layer 1 [1, 2] true := by
  have h : Event.layer 1 [1, 2] true ∈ (demoAfter 40).1.map (fun e => e.ev) := by decide +kernel
  obtain ⟨e, he, hev⟩ := List.mem_map.1 h
  obtain ⟨h1, h2, hh⟩ := mem_split he
  exact ⟨h1, h2, e, hh, hev⟩

/-- C08: when a set is complete, every node of the consideration set that is not in it
was evaluated to false with the final counts (and an at most older state of `NWhen`
counters). -/
theorem C08_maximal (hr : Reach E a s0 abs h s pc) {h1 h2 : History α κ W} {e : Entry α κ W}
    (hh : h = h1 ++ e :: h2) {i : Nat} {set : List α} {shown : Bool}
    (he : e.ev = .layer i set shown) :
    ∃ layer, e.before.queue[i]? = some layer ∧ ∀ n ∈ layer, n ∉ set →
      ∃ cond st, Dict.get? e.before.conds n = some cond ∧ st.owner = e.before.store.owner ∧
        (∀ o j, st.sat o j ≤ e.before.store.sat o j) ∧
        (eval e.before.toView a.id cond st).1 = .ok false := by
  obtain ⟨c, hc, rfl, rfl, ht, hag, _, _⟩ := hr.layerEntry hh he
  have ci := hc.choice c rfl
  refine ⟨c.layer, ci.queue, fun n hn hns => ?_⟩
  rcases hc.fix c rfl hag c.layer (by simp [ht]) n hn with h | ⟨cond, st, h1, h2, h3⟩
  · exact absurd h hns
  · exact ⟨cond, st, h1, h2.owner.symm, h2.grow, h3⟩

/-- C08 for conditions that contain no `NWhen`: the condition is unsatisfied in the final
state. -/
theorem C08_maximal_stateless (hr : Reach E a s0 abs h s pc) {h1 h2 : History α κ W}
    {e : Entry α κ W} (hh : h = h1 ++ e :: h2) {i : Nat} {set : List α} {shown : Bool}
    (he : e.ev = .layer i set shown) {n : α} {cond : Cond α κ W}
    (hn : At e.before.queue i n) (hns : n ∉ set)
    (hcn : Dict.get? e.before.conds n = some cond) (hst : Stateless cond) :
    NodeCond e.before a.id n false := by
  obtain ⟨c, hc, rfl, rfl, ht, hag, _, _⟩ := hr.layerEntry hh he
  have ci := hc.choice c rfl
  obtain ⟨l, hl, hnl⟩ := hn
  rw [ci.queue] at hl; injection hl with hl; subst hl
  rcases hc.fix c rfl hag c.layer (by simp [ht]) n hnl with h | h
  · exact absurd h hns
  · exact h.stateless hcn hst

example : ∃ h1 h2 e, (demoAfter 40).1 = h1 ++ e :: h2 ∧ e.ev = Event.layer 1 [1] true ∧
    At e.before.queue 1 2 ∧ (Dict.get? e.before.conds 2).isSome := by
  have h : ((demoAfter 40).1.any fun e => decide (e.ev = Event.layer 1 [1] true ∧
      2 ∈ (e.before.queue[1]?).getD [] ∧ (Dict.get? e.before.conds 2).isSome)) = true := by
    decide +kernel
  obtain ⟨e, he, hev⟩ := List.any_eq_true.1 h
  obtain ⟨h1, h2, hh⟩ := mem_split he
  simp only [decide_eq_true_eq] at hev
  refine ⟨h1, h2, e, hh, hev.1, ?_, hev.2.2⟩
  cases hq : e.before.queue[1]? with
  | none => rw [hq] at hev; simp at hev
  | some l => rw [hq] at hev; exact ⟨l, hq, by simpa using hev.2.1⟩

/-- Both termination conditions evaluate to false: first the one for
`ENVIRONMENT_STATE_UPDATE`, then the one for `ENVIRONMENT_SEQUENCE`. -/
def Unfinished (s : Sys α κ W) (a : RunArgs α κ W) : Prop :=
  ∃ st, eval s.toView a.id a.esu s.store = (.ok false, st) ∧
    (eval s.toView a.id a.seq st).1 = .ok false

/-- One of the termination conditions evaluates to true. -/
def Finished (s : Sys α κ W) (a : RunArgs α κ W) : Prop :=
  (eval s.toView a.id a.esu s.store).1 = .ok true ∨
  ∃ st, eval s.toView a.id a.esu s.store = (.ok false, st) ∧
    (eval s.toView a.id a.seq st).1 = .ok true

theorem _root_.GS.Going.unfinished {s : Sys α κ W} {a : RunArgs α κ W} {st} (h : Going s a st) :
    Unfinished s a := by
  obtain ⟨st1, h1, h2⟩ := h; exact ⟨st1, h1, by rw [h2]⟩

theorem _root_.GS.Done.finished {s : Sys α κ W} {a : RunArgs α κ W} {st} (h : Done s a st) :
    Finished s a := by
  rcases h with h | ⟨st1, h1, h2⟩
  · exact .inl (by rw [h])
  · exact .inr ⟨st1, h1, by rw [h2]⟩

/-- C14: the choice of a set begins only in a state in which neither termination
condition is satisfied. -/
theorem C14_never_starts_when_finished (hr : Reach E a s0 abs h s pc) {e : Entry α κ W}
    (he : e ∈ h) (hev : (∃ i layer, e.ev = .consider i layer) ∨ e.ev = .passStart) :
    Unfinished e.before a := by
  obtain ⟨h1, h2, hh⟩ := mem_split he
  obtain ⟨p, p', _, hs, _⟩ := hr.entry _ _ _ hh
  have hst := Sys.step_stepR hs
  generalize hx : some e.ev = ev at hst
  generalize e.after = sa at hst
  cases hst with
  | consider hq hg => exact hg.unfinished
  | pass hg hf => exact hg.unfinished
  | fails _ _ h' =>
    rcases h' with rfl | ⟨_, rfl, _⟩
    · cases hx
    · injection hx with hx; rw [hx] at hev; rcases hev with ⟨_, _, h⟩ | h <;> cases h
  | _ =>
    first
    | cases hx
    | (injection hx with hx; rw [hx] at hev; rcases hev with ⟨_, _, h⟩ | h <;> cases h)

/-- C14: a run that has returned left its loop in a state in which a termination
condition was satisfied. -/
theorem C14_returns_only_when_finished (hr : Reach E a s0 abs h s .returned) :
    ∃ h' e, h = h' ++ [e] ∧ e.ev = .stop ∧ Finished e.before a := by
  have := hr.ind (P := fun h s pc => pc = .returned →
      ∃ h' e, h = h' ++ [e] ∧ e.ev = .stop ∧ Finished e.before a)
    (by intro s _ h; cases h)
    (by
      intro h s s' pc pc' ev _ ih hst hp
      cases hst with
      | stopSkip hd => exact ⟨h, _, by rw [ext_some], rfl, hd.finished⟩
      | stopIncr hd => exact ⟨h, _, by rw [ext_some], rfl, hd.finished⟩
      | returned => rw [ext_none]; exact ih rfl
      | _ => cases hp)
    (by intro h s s' pc _ ih hp _ h'; subst h'; simp [PC.suspended] at hp)
  exact this rfl

/-- C14: every set yielded was chosen in a choice begun in a state in which neither
termination condition was satisfied. -/
theorem C14_yielded_sets (hr : Reach E a s0 abs h s pc) {h1 h2 : History α κ W} {e : Entry α κ W}
    (hh : h = h1 ++ e :: h2) {i : Nat} {set : List α} {shown : Bool}
    (he : e.ev = .layer i set shown) :
    ∃ c0 pre es layer, h1 = pre ++ c0 :: es ∧ c0.ev = .consider i layer ∧
      (∀ x ∈ es, ∃ n, x.ev = .add n) ∧ Unfinished c0.before a := by
  obtain ⟨es, ⟨c0, pre, layer, h1', h2'⟩, h3, _⟩ := C07_sound hr hh he
  refine ⟨c0, pre, es, layer, h2', h1', ?_, ?_⟩
  · intro x hx
    have : x.ev ∈ set.map Event.add := h3 ▸ List.mem_map.2 ⟨x, hx, rfl⟩
    obtain ⟨n, _, hn⟩ := List.mem_map.1 this
    exact ⟨n, hn.symm⟩
  · exact C14_never_starts_when_finished hr (by rw [hh, h2']; simp) (.inl ⟨_, _, h1'⟩)

example : Reach (fun _ _ => False) demoArgs demo false (demoAfter 40).1 (demoAfter 40).2.1
    .returned := by
  have := demo_reach (fun _ _ => False) 40
  rw [demo_run.2] at this; exact this

end Props
end GS

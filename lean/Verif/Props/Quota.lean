import Verif.Quota
import Verif.Props.Life
import Verif.Props.RunCounts
import Verif.Props.Conditions
/-!
# C97: a node with a quota
-/

set_option linter.unusedSectionVars false

namespace GS.Props
open Spec
variable {α κ W β : Type _} [DecidableEq α] [DecidableEq κ]
variable {U E : Sys α κ W → Sys α κ W → Prop} {a : RunArgs α κ W} {s0 s s' : Sys α κ W}
variable {abs : Bool} {pc pc' : PC α} {ev : Option (Event α)} {h : History α κ W}
variable {log : List (Option κ × Entry α κ W)} {gs : List (Gen α κ W)} {i : Option κ}
variable {o : Nat} {c : Cond α κ W} {n : Int} {b : α}

/-- What the user does keeps the condition of `b` and does not lower the object's count of
satisfactions under the id `i` (no method of the package does). -/
def KeepsQuota (U : Sys α κ W → Sys α κ W → Prop) (b : α) (o : Nat) (i : Option κ) : Prop :=
  ∀ s s', U s s' → s.store.fresh ≤ s'.store.fresh ∧
    Dict.get? s'.conds b = Dict.get? s.conds b ∧ s.store.sat o i ≤ s'.store.sat o i

theorem under_event (j : Option κ) (s s' : Sys α κ W) (ev : Option (Event α)) :
    selections (under i (ev.toList.map fun x => (j, (⟨s, x, s'⟩ : Entry α κ W)))) =
      if j = i then (ev.bind Event.add?).toList else [] := by
  cases ev with
  | none => simp [under, selections]
  | some e =>
    simp only [Option.toList, List.map_cons, List.map_nil, under_single]
    split
    · rw [selections_single]; rfl
    · rfl

theorem quota_inv (hl : Life U s0 log s gs) (ho : o < s0.store.fresh)
    (hc : Dict.get? s0.conds b = some (.nwhen o c n)) (hU : KeepsQuota U b o i) :
    o < s.store.fresh ∧ Dict.get? s.conds b = some (.nwhen o c n) ∧
      s0.store.sat o i + (selections (under i log)).count b ≤ s.store.sat o i ∧
      ((selections (under i log)).count b : Int) ≤ max (n - s0.store.sat o i) 0 := by
  induction hl with
  | init => exact ⟨ho, hc, by simp [under, selections], by simp [under, selections]; omega⟩
  | start _ hs ih =>
    obtain ⟨h1, h2, h3, h4⟩ := ih
    obtain ⟨k1, k2, k3⟩ := start_quota hs h1
    exact ⟨k1, k3 _ _ h2, by rw [k2]; exact h3, h4⟩
  | startFails _ hs ih =>
    obtain ⟨h1, h2, h3, h4⟩ := ih
    obtain ⟨k1, k2, k3⟩ := start_quota hs h1
    exact ⟨k1, k3 _ _ h2, by rw [k2]; exact h3, h4⟩
  | user _ hu ih =>
    obtain ⟨h1, h2, h3, h4⟩ := ih
    obtain ⟨k1, k2, k3⟩ := hU _ _ hu
    exact ⟨by omega, k2.trans h2, by omega, h4⟩
  | @step log s s' gs k g pc' ev hl hk hs ih =>
    obtain ⟨h1, h2, h3, h4⟩ := ih
    obtain ⟨e1, e2⟩ := Sys.step_evaluated hs
    have hgrow : s.store.sat o i ≤ s'.store.sat o i := by
      clear h3
      generalize s.store = st at e1
      generalize s'.store = st' at e1
      induction e1 with
      | refl => exact Nat.le_refl _
      | eval v id d _ _ ih => exact Nat.le_trans ih ((eval_store v id d _).grow o i)
    refine ⟨by rw [e1.fresh]; exact h1, by rw [e2]; exact h2, ?_⟩
    rw [under_append, selections_append, List.count_append, under_event]
    by_cases hb : g.args.id = i ∧ ev = some (.add b)
    · obtain ⟨rfl, rfl⟩ := hb
      have hst := Sys.step_stepR hs
      have key : (s.store.sat o g.args.id : Int) < n ∧
          s.store.sat o g.args.id + 1 ≤ s'.store.sat o g.args.id := by
        generalize hpc : g.pc = pc at hst
        cases hst with
        | add k1 k2 k3 k4 k5 k6 k7 =>
          rw [h2] at k3
          cases k3
          exact nwhen_true k4
        | fails _ _ hev => rcases hev with hev | ⟨_, hev, _⟩ <;> cases hev
      have : (if g.args.id = g.args.id then ((some (Event.add b)).bind Event.add?).toList else []).count b = 1 := by
        simp [Event.add?]
      rw [this]
      omega
    · have : (if g.args.id = i then (ev.bind Event.add?).toList else []).count b = 0 := by
        split
        · rename_i hi
          refine List.count_eq_zero.2 fun hm => hb ⟨hi, ?_⟩
          cases ev with
          | none => simp at hm
          | some e => cases e <;> simp [Event.add?] at hm ⊢; exact hm.symm
        · rfl
      rw [this]
      omega

/-- C97: a node whose condition is `NWhen(c, n)` is selected at most `n` times under an
execution id, over the whole life of the scheduler: over any number of runs, completed,
abandoned or interleaved.  (`s0` is the state in which the counting begins, `n` less what
the object has counted until then.) -/
theorem C97_at_most (hl : Life U s0 log s gs) (ho : o < s0.store.fresh)
    (hc : Dict.get? s0.conds b = some (.nwhen o c n)) (hU : KeepsQuota U b o i) :
    ((selections (under i log)).count b : Int) ≤ max (n - s0.store.sat o i) 0 :=
  (quota_inv hl ho hc hU).2.2.2

theorem life_of_reach (hr : Reach E a s0 abs h s pc) :
    Life E s0 (h.map fun e => (a.id, e)) s [⟨a, abs, pc⟩] := by
  induction hr with
  | start hs => exact Life.start Life.init hs
  | @step abs h s s' pc pc' ev hr hs ih =>
    have := Life.step (k := 0) ih rfl hs
    rw [List.map_append]
    cases ev <;> exact this
  | env _ _ he ih => exact Life.user ih he

theorem under_all (j : Option κ) (h : History α κ W) : under j (h.map fun e => (j, e)) = h := by
  induction h with
  | nil => rfl
  | cons e h ih => simpa [under] using ih

/-- C97 for one run: at most `n` of the sets it yields contain the node. -/
theorem C97_yielded (hr : Reach E a s0 abs h s pc) (ho : o < s0.store.fresh)
    (hc : Dict.get? s0.conds b = some (.nwhen o c n)) (hU : KeepsQuota E b o a.id) :
    (setsWith b (yields h) : Int) ≤ max (n - s0.store.sat o a.id) 0 := by
  have k := C97_at_most (life_of_reach hr) ho hc hU
  rw [under_all] at k
  obtain ⟨cur, _, hsel⟩ := hr.pending
  rw [hsel, List.count_append, count_flatten_sets hr.yields_nodup] at k
  omega

/-- C97: when the quota is used up, a run with the default termination conditions never
returns: `NWhen` does not start anew with a run. -/
theorem C97_never_returns (hr : Reach E a s0 abs h s pc) (ha : DefaultTermination a)
    (ho : o < s0.store.fresh) (hc : Dict.get? s0.conds b = some (.nwhen o c n))
    (hU : KeepsQuota E b o a.id) (hE : Keeps E (fun s => Dict.get? s.countsTotal a.id))
    (hEn : Keeps E (fun s => s.nodes)) (hb : b ∈ s0.nodes) (hn : n ≤ s0.store.sat o a.id) :
    pc ≠ .returned := by
  rintro rfl
  obtain ⟨set, h1, h2⟩ := C15_all_have_run ha hr hE hEn b hb
  have k := C97_yielded hr ho hc hU
  have : 0 < setsWith b (yields h) := List.countP_pos_iff.2 ⟨set, h1, by simpa using h2⟩
  omega

/-! ## The quota is used exactly by the executions -/

theorem counted_inv (hl : Life U s0 log s gs) (hf : OnlyFor b o c n s0)
    (ht : ∀ g ∈ gs, Without o g.args.esu ∧ Without o g.args.seq) (hr : ∀ g ∈ gs, ¬ g.hasRaised)
    (hU : ∀ s s', U s s' → OnlyFor b o c n s → OnlyFor b o c n s' ∧
      ∀ i, s'.store.sat o i = s.store.sat o i) :
    OnlyFor b o c n s ∧
      ∀ i, s.store.sat o i = s0.store.sat o i + (selections (under i log)).count b := by
  induction hl with
  | init => exact ⟨hf, fun i => by simp [under, selections]⟩
  | start _ hs ih =>
    obtain ⟨h1, h2⟩ := ih (fun g hm => ht g (List.mem_append_left _ hm))
      (fun g hm => hr g (List.mem_append_left _ hm))
    exact ⟨h1.start hs, fun i => ((start_quota hs h1.made).2.1 i).trans (h2 i)⟩
  | startFails _ hs ih =>
    obtain ⟨h1, h2⟩ := ih ht hr
    exact ⟨h1.start hs, fun i => ((start_quota hs h1.made).2.1 i).trans (h2 i)⟩
  | user _ hu ih =>
    obtain ⟨h1, h2⟩ := ih ht hr
    obtain ⟨h3, h4⟩ := hU _ _ hu h1
    exact ⟨h3, fun i => (h4 i).trans (h2 i)⟩
  | @step log s s' gs k g pc' ev hl hk hs ih =>
    have hlt : k < gs.length := (List.getElem?_eq_some_iff.1 hk).1
    have hmem : { g with pc := pc' } ∈ gs.set k { g with pc := pc' } :=
      List.mem_of_getElem? (i := k) (by rw [List.getElem?_set_self hlt])
    have hga := ht _ hmem
    have hgr : ∀ e, pc' ≠ .raised e := fun e he => hr _ hmem ⟨e, he⟩
    have hgp : ¬ g.hasRaised := by
      rintro ⟨e, he⟩
      rw [he] at hs
      simp only [Sys.step] at hs
      cases hs
      exact hgr e rfl
    have back : ∀ P : Gen α κ W → Prop, (∀ x ∈ gs.set k { g with pc := pc' }, P x) → P g →
        ∀ x ∈ gs, P x := by
      intro P hP hg x hx
      obtain ⟨j, hj⟩ := List.getElem?_of_mem hx
      by_cases hjk : j = k
      · subst hjk; rw [hk] at hj; cases hj; exact hg
      · exact hP x (List.mem_of_getElem? (i := j) (by rw [List.getElem?_set_ne (Ne.symm hjk)]; exact hj))
    obtain ⟨h1, h2⟩ := ih (back _ ht hga) (back (fun g => ¬ g.hasRaised) hr hgp)
    obtain ⟨e1, e2⟩ := Sys.step_evaluated hs
    refine ⟨⟨by rw [e1.fresh]; exact h1.made, by rw [e2]; exact h1.cond, h1.inner,
      by rw [e2]; exact h1.others⟩, fun i => ?_⟩
    rw [step_quota hs h1 hga hgr i, h2 i, under_append, selections_append, List.count_append,
      under_event]
    have : (if i = g.args.id ∧ ev = some (.add b) then 1 else 0) =
        (if g.args.id = i then (ev.bind Event.add?).toList else []).count b := by
      by_cases hi : g.args.id = i
      · subst hi
        cases ev with
        | none => simp
        | some e =>
          cases e <;> simp [Event.add?, List.count_singleton]
      · simp [hi, Ne.symm hi]
    omega

/-- C97: as long as no run raises and the object is used only as the condition of `b`, the
quota is used by the executions of `b` and by nothing else. -/
theorem C97_counted (hl : Life U s0 log s gs) (hf : OnlyFor b o c n s0)
    (ht : ∀ g ∈ gs, Without o g.args.esu ∧ Without o g.args.seq) (hr : ∀ g ∈ gs, ¬ g.hasRaised)
    (hU : ∀ s s', U s s' → OnlyFor b o c n s → OnlyFor b o c n s' ∧
      ∀ i, s'.store.sat o i = s.store.sat o i) (i : Option κ) :
    s.store.sat o i = s0.store.sat o i + (selections (under i log)).count b :=
  (counted_inv hl hf ht hr hU).2 i

/-- C97: so whenever `b` is considered (and no exception is raised), it is selected exactly
if `c` is satisfied and it was selected fewer than `n` times before under the same id. -/
theorem C97_decided (hl : Life U s0 log s gs) (hf : OnlyFor b o c n s0)
    (h0 : ∀ i, s0.store.sat o i = 0)
    (ht : ∀ g ∈ gs, Without o g.args.esu ∧ Without o g.args.seq) (hr : ∀ g ∈ gs, ¬ g.hasRaised)
    (hU : ∀ s s', U s s' → OnlyFor b o c n s → OnlyFor b o c n s' ∧
      ∀ i, s'.store.sat o i = s.store.sat o i)
    {ch : Choice α} {ns : List α} (hch : ch.todo = b :: ns) (hb : b ∉ ch.exec)
    (hs : s.step a abs (.choosing ch) = (s', pc', ev)) (hne : ∀ e, pc' ≠ .raised e) :
    ev = some (.add b) ↔ (eval s.toView a.id c s.store).1 = .ok true ∧
      ((selections (under a.id log)).count b : Int) < n := by
  obtain ⟨h1, h2⟩ := counted_inv hl hf ht hr hU
  have h2 := h2 a.id
  rw [h0, Nat.zero_add] at h2
  have key : ∀ r st, eval s.toView a.id (.nwhen o c n) s.store = (.ok r, st) →
      (r = true ↔ (eval s.toView a.id c s.store).1 = .ok true ∧
        ((selections (under a.id log)).count b : Int) < n) := by
    intro r st he
    simp only [eval] at he
    rw [h2] at he
    split at he
    · rename_i hlt
      generalize eval s.toView a.id c s.store = p at he ⊢
      obtain ⟨x, st1⟩ := p
      rcases x with e | y
      · cases he
      · cases y <;> cases he <;> simp [hlt]
    · rename_i hlt
      cases he
      simp [hlt]
  have hst := Sys.step_stepR hs
  cases hst with
  | again k1 => rw [hch] at k1; cases k1
  | skip k1 k2 => rw [hch] at k1; cases k1; exact absurd k2 hb
  | reject k1 k2 k3 k4 =>
    rw [hch] at k1
    cases k1
    rw [h1.cond] at k3
    cases k3
    rw [← key _ _ k4]
    simp
  | add k1 k2 k3 k4 =>
    rw [hch] at k1
    cases k1
    rw [h1.cond] at k3
    cases k3
    rw [← key _ _ k4]
    simp
  | yield k1 => rw [hch] at k1; cases k1
  | yieldAbs k1 => rw [hch] at k1; cases k1
  | silent k1 => rw [hch] at k1; cases k1
  | fails => exact absurd rfl (hne _)

/-! ## A concrete case

`nwhenDemo`: graph `0 -> 1`, node 1 has `NWhen(Always, 2)`. -/

/-- After a run of four passes, in two of which node 1 executed. -/
def usedUp : Sys Nat Nat Unit := (runAfter nwhenDemo nwhenArgs 200).2.1

/-- A run with the default termination conditions. -/
def untilAllRan (id : Option Nat) : RunArgs Nat Nat Unit :=
  { id := id, esu := .leaf 10 (.allHaveRun [] .environment_state_update), seq := .leaf 11 .never }

theorem nwhenDemo_onlyFor : OnlyFor 1 0 (.leaf 1 .always) 2 nwhenDemo := by
  refine ⟨by decide, rfl, (fun e => by cases e), fun m d hm hd => ?_⟩
  have : Dict.get? nwhenDemo.conds m =
      if 1 = m then some (.nwhen 0 (.leaf 1 .always) 2) else none := rfl
  rw [this, if_neg (Ne.symm hm)] at hd
  cases hd

/-- `C97_at_most`, `C97_yielded`, `C97_counted`, `C97_decided`: a run in which the quota is
used up. -/
example : ∃ log s gs, Life (fun _ _ => False) nwhenDemo log s gs ∧
    (selections (under none log)).count 1 = 2 ∧ s.store.sat 0 none = 2 ∧
    (∀ g ∈ gs, Without 0 g.args.esu ∧ Without 0 g.args.seq) ∧ (∀ g ∈ gs, ¬ g.hasRaised) ∧
    KeepsQuota (fun _ _ : Sys Nat Nat Unit => False) 1 0 none := by
  have hr := run_reach (s := nwhenDemo) (a := nwhenArgs) (b := false) (by decide +kernel)
    (fun _ _ => False) 200
  refine ⟨_, _, _, life_of_reach hr, by decide +kernel, by decide +kernel, ?_, ?_,
    fun _ _ h => h.elim⟩
  · intro g hg
    rw [List.mem_singleton] at hg
    subst hg
    exact ⟨(fun e => by cases e), (fun e => by cases e)⟩
  · intro g hg
    rw [List.mem_singleton] at hg
    subst hg
    rintro ⟨e, he⟩
    have : (runAfter nwhenDemo nwhenArgs 200).2.2 = .returned := by decide +kernel
    dsimp only at he
    rw [this] at he
    cases he

/-- `C97_decided`: node 1 is considered and selected for the second time after one selection;
after two it is considered and left out, although its component is satisfied. -/
example : (runAfter nwhenDemo nwhenArgs 22).2.2 =
      .choosing { idx := 1, changed := true, layer := [1], exec := [], todo := [1], again := false } ∧
    (selections (runAfter nwhenDemo nwhenArgs 22).1).count 1 = 1 ∧
    (selections (runAfter nwhenDemo nwhenArgs 23).1).count 1 = 2 ∧
    (runAfter nwhenDemo nwhenArgs 36).2.2 =
      .choosing { idx := 1, changed := true, layer := [1], exec := [], todo := [1], again := false } ∧
    (selections (runAfter nwhenDemo nwhenArgs 37).1).count 1 = 2 := by decide +kernel

/-- `C97_never_returns`: the second run under the same id only ever executes node 0; a run
under another id has a quota of its own. -/
example : usedUp.store.sat 0 none = 2 ∧ DefaultTermination (untilAllRan none) ∧
    1 ∈ usedUp.nodes ∧ (Dict.get? usedUp.conds 1).isSome ∧
    yields (runAfter usedUp (untilAllRan none) 60).1 = [[0], [0], [0], [0], [0]] ∧
    yields (runAfter usedUp (untilAllRan (some 7)) 60).1 = [[0], [1]] ∧
    (runAfter usedUp (untilAllRan (some 7)) 60).2.2 = .returned := by
  refine ⟨by decide +kernel, ⟨_, _, rfl, rfl⟩, by decide +kernel, by decide +kernel,
    by decide +kernel, by decide +kernel, by decide +kernel⟩

end GS.Props

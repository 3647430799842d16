import Verif.TermLemmas
import Verif.Props.Demo
/-!
# Termination conditions are merged over the defaults (C45), and may be named (C58)
-/

set_option linter.unusedSectionVars false

namespace GS.Props
open GS Spec
variable {β : Type _}

/-- Assignments to `termination_conds` and runs, one after the other, from the state `t0`
of a new scheduler: the list has the assignments that did not raise, latest first. -/
inductive Assigns (t0 : TermState β) : List (Option (TArg β)) → TermState β → Prop where
  | new : Assigns t0 [] t0
  | assigned {ds : List (Option (TArg β))} {t t' : TermState β} {d d' : Option (TArg β)} :
      Assigns t0 ds t → t.assign d = (t', d', none) → Assigns t0 (d :: ds) t'
  | failed {ds : List (Option (TArg β))} {t t' : TermState β} {d d' : Option (TArg β)} {e : Err} :
      Assigns t0 ds t → t.assign d = (t', d', some e) → Assigns t0 ds t'
  | ran {ds : List (Option (TArg β))} {t t' : TermState β} {d d' : Option (TArg β)}
      {r : Except Err (Dict TimeScale β)} :
      Assigns t0 ds t → t.forRun d = (t', d', r) → Assigns t0 ds t'

theorem unambiguous_named {d : TArg β} (h : Unambiguous d) (ts : TimeScale) (s s' : String)
    (h1 : NamedBy (Dict.keys d) ts s) (h2 : NamedBy (Dict.keys d) ts s') : s' = s := by
  have := h.2 _ h1.1 _ h2.1 ts (scaleNamed_iff.mp h1.2) (scaleNamed_iff.mp h2.2)
  cases this
  rfl

theorem not_named_of_scale {d : TArg β} (h : Unambiguous d) {ts : TimeScale}
    (hm : TKey.scale ts ∈ Dict.keys d) (s : String) : ¬ NamedBy (Dict.keys d) ts s := by
  intro hn
  have := h.2 _ hm _ hn.1 ts rfl (scaleNamed_iff.mp hn.2)
  cases this

theorem mentions_iff {d : TArg β} {ts : TimeScale} :
    Mentions d ts ↔ (∃ s, NamedBy (Dict.keys d) ts s) ∨ TKey.scale ts ∈ Dict.keys d := by
  constructor
  · rintro ⟨k, hk, hn⟩
    cases k with
    | scale t => exact .inr ((show t = ts from hn) ▸ hk)
    | name s => exact .inl ⟨s, hk, scaleNamed_iff.mpr hn⟩
    | other n => exact absurd hn id
  · rintro (⟨s, h1, h2⟩ | h)
    · exact ⟨_, h1, scaleNamed_iff.mp h2⟩
    · exact ⟨_, h, rfl⟩

/-- What a dict gives, in terms of its entries. -/
theorem gives_iff {d : TArg β} (h : Unambiguous d) {ts : TimeScale} {c : β} :
    Gives d ts c ↔
      (∃ s, NamedBy (Dict.keys d) ts s ∧ Dict.get? d (.name s) = some (.cond c)) ∨
      ((∀ s, ¬ NamedBy (Dict.keys d) ts s) ∧ Dict.get? d (.scale ts) = some (.cond c)) := by
  constructor
  · rintro ⟨k, hn, hm⟩
    have hk : k ∈ Dict.keys d := List.mem_map.mpr ⟨_, hm, rfl⟩
    have hg := Dict.get?_of_mem h.1 hm
    cases k with
    | scale t =>
      cases (show t = ts from hn)
      exact .inr ⟨not_named_of_scale h hk, hg⟩
    | name s => exact .inl ⟨s, ⟨hk, scaleNamed_iff.mpr hn⟩, hg⟩
    | other n => exact absurd hn id
  · rintro (⟨s, h1, h2⟩ | ⟨_, h2⟩)
    · exact ⟨.name s, scaleNamed_iff.mp h1.2, Dict.mem_of_get? h2⟩
    · exact ⟨.scale ts, rfl, Dict.mem_of_get? h2⟩

/-- A dict of conditions holds exactly what `P` says, including both time scales that end
runs. -/
structure HoldsExactly (d : Dict TimeScale β) (P : TimeScale → β → Prop) : Prop where
  wf : Dict.WF d
  iff : ∀ ts c, Dict.get? d ts = some c ↔ P ts c
  esu : ∃ c, Dict.get? d .environment_state_update = some c
  seq : ∃ c, Dict.get? d .environment_sequence = some c

theorem HoldsExactly.combine {m p : Dict TimeScale β} {P : TimeScale → β → Prop} {d d' : TArg β}
    (hm : HoldsExactly m P) (hd : Unambiguous d) (hp : parseTerm d = (d', .ok p)) :
    HoldsExactly (Dict.update m p) (Over (some d) P) := by
  obtain ⟨w, _, h1, h2⟩ := parseTerm_ok hd.1 (unambiguous_named hd) hp
  have some_of : ∀ ts, (∃ c, Dict.get? m ts = some c) →
      ∃ c, Dict.get? (Dict.update m p) ts = some c := by
    rintro ts ⟨c, hc⟩
    rw [Dict.get?_update _ _ w]
    rcases Dict.get? p ts with _ | c'
    · exact ⟨c, hc⟩
    · exact ⟨c', rfl⟩
  refine ⟨Dict.WF.update hm.wf p, ?_, some_of _ hm.esu, some_of _ hm.seq⟩
  intro ts c
  rw [Dict.get?_update _ _ w]
  show _ ↔ Gives d ts c ∨ (¬ Mentions d ts ∧ P ts c)
  rw [gives_iff hd, ← h1 ts c, mentions_iff, ← hm.iff ts c]
  by_cases hmen : (∃ s, NamedBy (Dict.keys d) ts s) ∨ TKey.scale ts ∈ Dict.keys d
  · obtain ⟨c', hc'⟩ := h2 ts hmen
    simp [hc', hmen]
  · have hnone : Dict.get? p ts = none := by
      rcases hg : Dict.get? p ts with _ | c'
      · rfl
      · exfalso
        rcases (h1 ts c').mp hg with ⟨s, hs, _⟩ | ⟨_, hs⟩
        · exact hmen (.inl ⟨s, hs⟩)
        · exact hmen (.inr (Dict.get?_isSome.mp (by rw [hs]; rfl)))
    simp [hnone, hmen]

theorem defaults_exactly (never allRun : β) :
    HoldsExactly (defaultTerm never allRun) (IsDefault never allRun) := by
  refine ⟨by simp [Dict.WF, Dict.keys, defaultTerm], ?_, ⟨_, rfl⟩, ⟨_, rfl⟩⟩
  intro ts c
  cases ts <;> simp [defaultTerm, Dict.get?_cons, IsDefault, eq_comm]

theorem get?_asArg (d : Dict TimeScale β) (ts : TimeScale) :
    Dict.get? (asArg d) (.scale ts) = (Dict.get? d ts).map TVal.cond := by
  induction d with
  | nil => rfl
  | cons p d ih =>
    obtain ⟨t, c⟩ := p
    simp only [asArg, List.map_cons, Dict.get?_cons, TKey.scale.injEq]
    by_cases e : t = ts
    · simp [e]
    · simp only [e, if_false]; exact ih

theorem keys_asArg (d : Dict TimeScale β) : Dict.keys (asArg d) = (Dict.keys d).map .scale := by
  simp [Dict.keys, asArg]

theorem kept_asArg (d : Dict TimeScale β) : (asArg d).filterMap keptEntry = d := by
  induction d with
  | nil => rfl
  | cons p d ih => simpa [asArg, keptEntry] using ih

theorem new_exactly {never allRun : β} {ctor : Option (TArg β)} {t : TermState β}
    (hc : ∀ d, ctor = some d → Unambiguous d) (h : TermState.new never allRun ctor = .ok t) :
    t.current = t.defaults ∧
      HoldsExactly t.defaults (Over ctor (IsDefault never allRun)) := by
  have hdef := defaults_exactly never allRun
  have hwf0 : Dict.WF (asArg (defaultTerm never allRun)) := by
    simp [Dict.WF, Dict.keys, defaultTerm, asArg]
  cases ctor with
  | none =>
    simp only [TermState.new] at h
    rw [parseTerm_members] at h
    · simp only [Except.ok.injEq] at h
      subst h
      refine ⟨rfl, ?_⟩
      rw [kept_asArg]
      exact hdef
    · intro p hp
      obtain ⟨q, _, rfl⟩ := List.mem_map.mp hp
      exact ⟨_, _, rfl⟩
  | some d =>
    have hd := hc d rfl
    simp only [TermState.new] at h
    rcases hp : parseTerm (Dict.update (asArg (defaultTerm never allRun)) d) with ⟨d', _ | p⟩
    · rw [hp] at h; simp at h
    · rw [hp] at h
      simp only [Except.ok.injEq] at h
      subst h
      refine ⟨rfl, ?_⟩
      have hkeys : ∀ k, k ∈ Dict.keys (Dict.update (asArg (defaultTerm never allRun)) d) ↔
          k ∈ Dict.keys d ∨ k ∈ Dict.keys (asArg (defaultTerm never allRun)) := by
        intro k
        rw [← Dict.get?_isSome, Dict.get?_update _ _ hd.1, ← Dict.get?_isSome,
          ← Dict.get?_isSome]
        rcases Dict.get? d k with _ | v <;> simp
      have hnamed : ∀ ts s, NamedBy (Dict.keys (Dict.update (asArg (defaultTerm never allRun)) d)) ts s ↔
          NamedBy (Dict.keys d) ts s := by
        intro ts s
        unfold NamedBy
        rw [hkeys, keys_asArg]
        simp
      obtain ⟨w, _, h1, h2⟩ := parseTerm_ok (Dict.WF.update hwf0 d)
        (fun ts s s' a b => unambiguous_named hd ts s s' ((hnamed _ _).mp a) ((hnamed _ _).mp b)) hp
      have present : ∀ ts, ts ∈ Dict.keys (defaultTerm never allRun) →
          ∃ c, Dict.get? p ts = some c := by
        intro ts hts
        apply h2
        refine .inr ((hkeys _).mpr (.inr ?_))
        rw [keys_asArg]
        exact List.mem_map.mpr ⟨ts, hts, rfl⟩
      refine ⟨w, ?_, present _ (by simp [defaultTerm, Dict.keys]),
        present _ (by simp [defaultTerm, Dict.keys])⟩
      intro ts c
      rw [h1 ts c]
      show _ ↔ Gives d ts c ∨ (¬ Mentions d ts ∧ IsDefault never allRun ts c)
      rw [gives_iff hd, mentions_iff, ← hdef.iff ts c]
      simp only [hnamed]
      rw [Dict.get?_update _ _ hd.1, get?_asArg]
      by_cases hn : ∃ s, NamedBy (Dict.keys d) ts s
      · obtain ⟨s, hs⟩ := hn
        have hg : Dict.get? (Dict.update (asArg (defaultTerm never allRun)) d) (.name s) =
            Dict.get? d (.name s) := by
          rw [Dict.get?_update _ _ hd.1]
          have := Dict.get?_isSome.mpr hs.1
          rcases hv : Dict.get? d (.name s) with _ | v
          · rw [hv] at this; exact absurd this (by simp)
          · rfl
        constructor
        · rintro (⟨s', hs', h⟩ | ⟨h, _⟩)
          · rw [unambiguous_named hd ts s s' hs hs', hg] at h
            exact .inl (.inl ⟨s, hs, h⟩)
          · exact absurd hs (h s)
        · rintro ((⟨s', hs', h⟩ | ⟨h, _⟩) | ⟨h, _⟩)
          · rw [unambiguous_named hd ts s s' hs hs'] at h
            exact .inl ⟨s, hs, by rw [hg]; exact h⟩
          · exact absurd hs (h s)
          · exact absurd (.inl ⟨s, hs⟩) h
      · have hn' : ∀ s, ¬ NamedBy (Dict.keys d) ts s := fun s hs => hn ⟨s, hs⟩
        have hno : ∀ P : String → Prop, ¬ ∃ s, NamedBy (Dict.keys d) ts s ∧ P s :=
          fun P ⟨s, hs, _⟩ => hn' s hs
        simp only [hno, hn', hn, not_false_eq_true, implies_true, true_and, false_or]
        by_cases hk : TKey.scale ts ∈ Dict.keys d
        · have := Dict.get?_isSome.mpr hk
          rcases hv : Dict.get? d (.scale ts) with _ | v
          · rw [hv] at this; exact absurd this (by simp)
          · simp [hk]
        · rw [Dict.get?_eq_none.mpr hk]
          rcases Dict.get? (defaultTerm never allRun) ts with _ | c' <;> simp [hk]

theorem assigns_exactly {never allRun : β} {ctor : Option (TArg β)} {t0 t : TermState β}
    {ds : List (Option (TArg β))} (hc : ∀ d, ctor = some d → Unambiguous d)
    (hnew : TermState.new never allRun ctor = .ok t0) (h : Assigns t0 ds t) :
    (∀ d, some d ∈ ds → Unambiguous d) →
    t.defaults = t0.defaults ∧ HoldsExactly t.current (Current never allRun ctor ds) := by
  obtain ⟨e0, h0⟩ := new_exactly hc hnew
  induction h with
  | new => exact fun _ => ⟨rfl, by rw [e0]; exact h0⟩
  | @assigned ds t t' d d' _ ha ih =>
    intro hds
    obtain ⟨i1, i2⟩ := ih (fun d hd => hds d (List.mem_cons_of_mem _ hd))
    cases d with
    | none =>
      simp only [TermState.assign, Prod.mk.injEq] at ha
      obtain ⟨rfl, _⟩ := ha
      exact ⟨i1, by rw [i1]; exact h0⟩
    | some d =>
      simp only [TermState.assign, TermState.combine] at ha
      rcases hp : parseTerm d with ⟨d1, _ | p⟩
      · rw [hp] at ha; simp at ha
      · rw [hp] at ha
        simp only [Prod.mk.injEq, and_true] at ha
        obtain ⟨rfl, _⟩ := ha
        exact ⟨i1, i2.combine (hds d List.mem_cons_self) hp⟩
  | @failed ds t t' d d' e _ ha ih =>
    intro hds
    have : t' = t := by
      cases d with
      | none => simp [TermState.assign] at ha
      | some d =>
        simp only [TermState.assign, TermState.combine] at ha
        rcases hp : parseTerm d with ⟨d1, _ | p⟩
        · rw [hp] at ha
          simp only [Prod.mk.injEq] at ha
          exact ha.1.symm
        · rw [hp] at ha; simp at ha
    subst this
    exact ih hds
  | @ran ds t t' d d' r _ ha ih =>
    intro hds
    have : t' = t := by
      cases d with
      | none => simp only [TermState.forRun, Prod.mk.injEq] at ha; exact ha.1.symm
      | some d =>
        simp only [TermState.forRun, TermState.combine] at ha
        rcases hp : parseTerm d with ⟨d1, _ | p⟩ <;> rw [hp] at ha <;>
          simp only [Prod.mk.injEq] at ha <;> exact ha.1.symm
    subst this
    exact ih hds

/-- C45: after any sequence of assignments to `termination_conds` (including `None` and
including ones that raised) and of runs with their own conditions, the condition that
`run(arg)` uses for a time scale is the one in its argument, else the one last assigned,
else the constructor's, else the default — and the two conditions its loop reads always
exist. -/
theorem C45_in_force {α κ W : Type _} {never allRun : Cond α κ W}
    {ctor arg arg' : Option (TArg (Cond α κ W))} {t0 t t' : TermState (Cond α κ W)}
    {ds : List (Option (TArg (Cond α κ W)))} {m : Dict TimeScale (Cond α κ W)}
    (hctor : ∀ d, ctor = some d → Unambiguous d) (hds : ∀ d, some d ∈ ds → Unambiguous d)
    (harg : ∀ d, arg = some d → Unambiguous d)
    (hnew : TermState.new never allRun ctor = .ok t0) (h : Assigns t0 ds t)
    (hrun : t.forRun arg = (t', arg', .ok m)) :
    (∀ ts c, Dict.get? m ts = some c ↔ Over arg (Current never allRun ctor ds) ts c) ∧
    ∀ id base skip, ∃ a, runArgsOf m id base skip = .ok a ∧
      Over arg (Current never allRun ctor ds) .environment_state_update a.esu ∧
      Over arg (Current never allRun ctor ds) .environment_sequence a.seq := by
  obtain ⟨_, i2⟩ := assigns_exactly hctor hnew h hds
  have hm : HoldsExactly m (Over arg (Current never allRun ctor ds)) := by
    cases arg with
    | none =>
      simp only [TermState.forRun, Prod.mk.injEq, Except.ok.injEq] at hrun
      rw [← hrun.2.2]
      exact i2
    | some d =>
      simp only [TermState.forRun, TermState.combine] at hrun
      rcases hp : parseTerm d with ⟨d1, _ | p⟩
      · rw [hp] at hrun; simp at hrun
      · rw [hp] at hrun
        simp only [Prod.mk.injEq, Except.ok.injEq] at hrun
        rw [← hrun.2.2]
        exact i2.combine (harg d rfl) hp
  refine ⟨hm.iff, ?_⟩
  intro id base skip
  obtain ⟨e, he⟩ := hm.esu
  obtain ⟨q, hq⟩ := hm.seq
  refine ⟨_, by rw [runArgsOf, he, hq], (hm.iff _ _).mp he, (hm.iff _ _).mp hq⟩

/-- C45, acceptance: dicts whose keys are `TimeScale` members and whose values are
conditions are accepted by the constructor, by assignment and by `run`, and are not
changed. -/
theorem C45_members_accepted (never allRun : β) (d : TArg β)
    (h : ∀ p ∈ d, ∃ ts c, p = (TKey.scale ts, TVal.cond c)) (t : TermState β) :
    (∃ t0, TermState.new never allRun (some d) = .ok t0) ∧
    (∃ t', t.assign (some d) = (t', some d, none)) ∧
    (∃ m, t.forRun (some d) = (t, some d, .ok m)) := by
  have hp := parseTerm_members h
  refine ⟨?_, ?_, ?_⟩
  · have : ∀ p ∈ Dict.update (asArg (defaultTerm never allRun)) d,
        ∃ ts c, p = (TKey.scale ts, TVal.cond c) := by
      have hset : ∀ (e : TArg β) ts c, (∀ p ∈ e, ∃ ts c, p = (TKey.scale ts, TVal.cond c)) →
          ∀ p ∈ Dict.set e (.scale ts) (.cond c), ∃ ts c, p = (TKey.scale ts, TVal.cond c) := by
        intro e ts c
        induction e with
        | nil =>
          intro _ p hp
          simp only [Dict.set, List.mem_cons, List.not_mem_nil, or_false] at hp
          exact ⟨_, _, hp⟩
        | cons q e ih =>
          intro he p hp
          obtain ⟨k, v⟩ := q
          obtain ⟨t, c', e1⟩ := he _ List.mem_cons_self
          cases e1
          unfold Dict.set at hp
          split at hp
          · rcases List.mem_cons.mp hp with rfl | hp
            · exact ⟨_, _, rfl⟩
            · exact he p (List.mem_cons_of_mem _ hp)
          · rcases List.mem_cons.mp hp with rfl | hp
            · exact ⟨_, _, rfl⟩
            · exact ih (fun p hp => he p (List.mem_cons_of_mem _ hp)) p hp
      have hfold : ∀ (l : TArg β) (e : TArg β), (∀ p ∈ l, ∃ ts c, p = (TKey.scale ts, TVal.cond c)) →
          (∀ p ∈ e, ∃ ts c, p = (TKey.scale ts, TVal.cond c)) →
          ∀ p ∈ Dict.update e l, ∃ ts c, p = (TKey.scale ts, TVal.cond c) := by
        intro l
        induction l with
        | nil => intro e _ he; exact he
        | cons q l ih =>
          intro e hl he
          obtain ⟨ts, c, rfl⟩ := hl q List.mem_cons_self
          exact ih _ (fun p hp => hl p (List.mem_cons_of_mem _ hp)) (hset e ts c he)
      refine hfold d _ h ?_
      intro p hp
      obtain ⟨q, _, rfl⟩ := List.mem_map.mp hp
      exact ⟨_, _, rfl⟩
    exact ⟨_, by simp only [TermState.new]; rw [parseTerm_members this]⟩
  · exact ⟨_, by simp only [TermState.assign, TermState.combine, hp]; rfl⟩
  · exact ⟨_, by simp only [TermState.forRun, TermState.combine, hp]; rfl⟩

/-- C58, in the constructor: a dict whose keys are members or names (in any case)
of the two time scales that end runs, and whose values are conditions, is accepted. -/
theorem C58_constructor_partial (never allRun : β) {d : TArg β} (hwf : Dict.WF d)
    (hc : ∀ p ∈ d, ∃ c, p.2 = TVal.cond c)
    (hk : ∀ k ∈ Dict.keys d, KeyNames k .environment_state_update ∨
      KeyNames k .environment_sequence) :
    ∃ t0, TermState.new never allRun (some d) = .ok t0 := by
  have hkeys : ∀ k, k ∈ Dict.keys (Dict.update (asArg (defaultTerm never allRun)) d) ↔
      k ∈ Dict.keys d ∨ k ∈ Dict.keys (asArg (defaultTerm never allRun)) := by
    intro k
    rw [← Dict.get?_isSome, Dict.get?_update _ _ hwf, ← Dict.get?_isSome, ← Dict.get?_isSome]
    rcases Dict.get? d k with _ | v <;> simp
  have hwf0 : Dict.WF (asArg (defaultTerm never allRun)) := by
    simp [Dict.WF, Dict.keys, defaultTerm, asArg]
  obtain ⟨d', p, h⟩ := parseTerm_accepts
    (d := Dict.update (asArg (defaultTerm never allRun)) d) (by
      intro q hq
      obtain ⟨k, v⟩ := q
      have hg := Dict.get?_of_mem (Dict.WF.update hwf0 d) hq
      rw [Dict.get?_update _ _ hwf] at hg
      rcases hd : Dict.get? d k with _ | v'
      · rw [hd] at hg
        have := Dict.mem_of_get? hg
        obtain ⟨r, _, hr⟩ := List.mem_map.mp this
        cases hr
        exact ⟨_, rfl⟩
      · rw [hd] at hg
        cases hg
        exact hc _ (Dict.mem_of_get? hd)) (by
      intro k hm
      rcases (hkeys k).mp hm with h | h
      · rcases hk k h with h | h
        · exact ⟨_, h⟩
        · exact ⟨_, h⟩
      · rw [keys_asArg] at h
        obtain ⟨ts, _, rfl⟩ := List.mem_map.mp h
        exact ⟨ts, rfl⟩) (by
      intro s ts hn
      refine (hkeys _).mpr (.inr ?_)
      have hs : TKey.name s ∈ Dict.keys d := by
        rcases (hkeys _).mp hn.1 with h | h
        · exact h
        · rw [keys_asArg] at h; simp at h
      have h1 := scaleNamed_iff.mp hn.2
      have : ts = .environment_state_update ∨ ts = .environment_sequence := by
        rcases hk _ hs with h | h
        · have h2 := scaleNamed_iff.mpr h
          rw [hn.2] at h2
          exact .inl (Option.some.inj h2)
        · have h2 := scaleNamed_iff.mpr h
          rw [hn.2] at h2
          exact .inr (Option.some.inj h2)
      rw [keys_asArg]
      rcases this with rfl | rfl <;> simp [defaultTerm, Dict.keys])
  exact ⟨_, by simp only [TermState.new]; rw [h]⟩

theorem parse_key_ok {d d' : TArg β} {p : Dict TimeScale β} {k : TKey}
    (hp : parseTerm d = (d', .ok p)) (hk : k ∈ Dict.keys d) (h1 : ∀ ts, k ≠ .scale ts)
    (h2 : ∀ s ts, k = .name s → scaleNamed s ≠ some ts) : False := by
  unfold parseTerm at hp
  rcases hr : renameLoop d.length (Dict.keys d) d [] with ⟨d1, _ | del⟩
  · rw [hr] at hp
    simp only [Prod.mk.injEq, reduceCtorEq, and_false] at hp
  · rw [hr] at hp
    simp only at hp
    split at hp
    · rename_i hall
      obtain ⟨k1, _, k3, _⟩ := renameLoop_ok rfl (fun _ h => h) hr
      rw [← k1] at hk
      obtain ⟨q, hq, rfl⟩ := List.mem_map.mp hk
      have := List.all_eq_true.mp hall q hq
      have hn : keptEntry q = none := by
        obtain ⟨k, v⟩ := q
        cases k with
        | scale ts => exact absurd rfl (h1 ts)
        | name s => rfl
        | other n => rfl
      rw [hn] at this
      simp only [Option.isSome_none, Bool.false_or, decide_eq_true_eq] at this
      rcases (k3 _).mp this with h | ⟨_, s, ts, e, hs⟩
      · exact absurd h (by simp)
      · exact h2 s ts e hs
    · simp only [Prod.mk.injEq, reduceCtorEq, and_false] at hp

/-- C45, rejection: `run(arg)` raises if the dict has a key that is no time scale or a
value that is not a basic condition; the same holds for assignment. -/
theorem C45_rejected {d : TArg β} {t : TermState β} (hd : Unambiguous d)
    (hbad : ∃ p ∈ d, (∀ ts, ¬ KeyNames p.1 ts) ∨ (∀ c, p.2 ≠ TVal.cond c)) :
    (∃ d' e, t.forRun (some d) = (t, some d', .error e)) ∧
    (∃ d' e, t.assign (some d) = (t, some d', some e)) := by
  rcases hp : parseTerm d with ⟨d', e | p⟩
  · exact ⟨⟨d', e, by simp only [TermState.forRun, TermState.combine, hp]⟩,
      ⟨d', e, by simp only [TermState.assign, TermState.combine, hp]⟩⟩
  · exfalso
    obtain ⟨q, hq, hbad⟩ := hbad
    obtain ⟨k, v⟩ := q
    have hkd : k ∈ Dict.keys d := List.mem_map.mpr ⟨_, hq, rfl⟩
    have hname : ∃ ts, KeyNames k ts := by
      cases k with
      | scale t => exact ⟨t, rfl⟩
      | name s =>
        rcases hs : scaleNamed s with _ | ts
        · exfalso; exact parse_key_ok hp hkd (by intro ts e; cases e) (by intro s' ts e hn; cases e; rw [hs] at hn; cases hn)
        · exact ⟨ts, scaleNamed_iff.mp hs⟩
      | other n => exfalso; exact parse_key_ok hp hkd (by intro ts e; cases e) (by intro s' ts e; cases e)
    obtain ⟨ts, hts⟩ := hname
    rcases hbad with hbad | hbad
    · exact hbad ts hts
    · obtain ⟨_, _, h1, h2⟩ := parseTerm_ok hd.1 (unambiguous_named hd) hp
      obtain ⟨c, hc⟩ := h2 ts (mentions_iff.mp ⟨k, hkd, hts⟩)
      obtain ⟨k', hk', hm⟩ := (gives_iff hd).mpr ((h1 ts c).mp hc)
      have : k' = k := hd.2 _ (List.mem_map.mpr ⟨_, hm, rfl⟩) _ hkd ts hk' hts
      subst this
      have e1 := Dict.get?_of_mem hd.1 hm
      rw [Dict.get?_of_mem hd.1 hq] at e1
      exact hbad c (Option.some.inj e1)

/-- C58, negation: `run(arg)` and assignment raise `RuntimeError` whenever the
dict uses the name of a time scale and not (also) its member, and leave the dict with a
new entry. -/
theorem C58_names_raise {d : TArg β} {s : String} {ts : TimeScale} (t : TermState β)
    (hs : TKey.name s ∈ Dict.keys d) (hts : KeyNames (.name s) ts)
    (hno : TKey.scale ts ∉ Dict.keys d) :
    ∃ d', t.forRun (some d) = (t, some d', .error .runtimeError) ∧
      t.assign (some d) = (t, some d', some .runtimeError) ∧
      ∃ ts', TKey.scale ts' ∉ Dict.keys d ∧ TKey.scale ts' ∈ Dict.keys d' := by
  obtain ⟨d', h1, h2⟩ := renameLoop_grows (del := []) (fun _ h => h)
    ⟨hs, scaleNamed_iff.mpr hts⟩ hno
  have hp : parseTerm d = (d', .error .runtimeError) := by
    unfold parseTerm; rw [h1]
  exact ⟨d', by simp only [TermState.forRun, TermState.combine, hp],
    by simp only [TermState.assign, TermState.combine, hp], h2⟩

/-! ## The hypotheses can be met -/

/-- Two conditions standing for the defaults, and four others. -/
def condNo (n : Nat) : Cond Nat Nat Unit := .leaf n (.atPass n .environment_state_update)

/-- A constructor argument that uses a name in lower case. -/
def ctorArg : TArg (Cond Nat Nat Unit) :=
  [(.name "environment_state_update", .cond (condNo 3))]

/-- Two assignments and the argument of a run. -/
def firstAssigned : TArg (Cond Nat Nat Unit) := [(.scale .environment_sequence, .cond (condNo 4))]
def secondAssigned : TArg (Cond Nat Nat Unit) := [(.scale .environment_state_update, .cond (condNo 5))]
def runArg : TArg (Cond Nat Nat Unit) := [(.scale .environment_sequence, .cond (condNo 6))]

def stateNew : TermState (Cond Nat Nat Unit) :=
  { defaults := [(.environment_sequence, condNo 1), (.environment_state_update, condNo 3)]
    current := [(.environment_sequence, condNo 1), (.environment_state_update, condNo 3)] }

example : Unambiguous ctorArg ∧ Unambiguous firstAssigned ∧ Unambiguous secondAssigned ∧
    Unambiguous runArg := by
  refine ⟨⟨by decide, ?_⟩, ⟨by decide, ?_⟩, ⟨by decide, ?_⟩, ⟨by decide, ?_⟩⟩ <;>
    · intro k hk k' hk' ts _ _
      simp only [ctorArg, firstAssigned, secondAssigned, runArg, Dict.keys, List.map_cons,
        List.map_nil, List.mem_singleton] at hk hk'
      rw [hk, hk']

/-- The lower-case name counts in the constructor, the conditions merge, and the run's own
condition comes first. -/
example : ∃ t1 t2 m,
    TermState.new (condNo 1) (condNo 2) (some ctorArg) = .ok stateNew ∧
    stateNew.assign (some firstAssigned) = (t1, some firstAssigned, none) ∧
    t1.assign (some secondAssigned) = (t2, some secondAssigned, none) ∧
    Assigns stateNew [some secondAssigned, some firstAssigned] t2 ∧
    t2.forRun (some runArg) = (t2, some runArg, .ok m) ∧
    m = [(.environment_sequence, condNo 6), (.environment_state_update, condNo 5)] := by
  have h0 : scaleNamed "environment_state_update" = some .environment_state_update := by
    decide +kernel
  refine ⟨{ stateNew with current := [(.environment_sequence, condNo 4), (.environment_state_update, condNo 3)] },
    { stateNew with current := [(.environment_sequence, condNo 4), (.environment_state_update, condNo 5)] },
    [(.environment_sequence, condNo 6), (.environment_state_update, condNo 5)], ?_, rfl, rfl,
    .assigned (d' := some secondAssigned) (.assigned (d' := some firstAssigned) .new rfl) rfl,
    rfl, rfl⟩
  simp [TermState.new, parseTerm, ctorArg, asArg, defaultTerm, Dict.update, Dict.set, Dict.keys,
    renameLoop, renameStep, h0, Dict.get?_cons, keptEntry, stateNew]

/-- The same dict raises when it is given to `run`. -/
example : ∃ d', stateNew.forRun (some ctorArg) = (stateNew, some d', .error .runtimeError) := by
  obtain ⟨d', h, _⟩ := C58_names_raise (d := ctorArg) (s := "environment_state_update")
    (ts := .environment_state_update) stateNew (by simp [ctorArg, Dict.keys])
    (by show String.toUpper _ = _; decide +kernel) (by simp [ctorArg, Dict.keys])
  exact ⟨d', h⟩

/-- A key that is no time scale. -/
example : ∃ d' e, stateNew.forRun (some [(.name "trial", .cond (condNo 7))]) =
    (stateNew, some d', .error e) := by
  refine (C45_rejected ⟨by decide, ?_⟩ ⟨_, List.mem_singleton_self _, .inl ?_⟩).1
  · intro k hk k' hk' ts _ _
    simp only [Dict.keys, List.map_cons, List.map_nil, List.mem_singleton] at hk hk'
    rw [hk, hk']
  · intro ts h
    have h' : String.toUpper "trial" = nameOf ts := h
    revert h'
    cases ts <;> decide +kernel

end GS.Props

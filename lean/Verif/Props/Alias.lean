import Verif.AliasOps

/-!
# C73, C74: aliases of time scales
-/

set_option linter.unusedSectionVars false

namespace GS.Props

/-- The names of the package before any alias is set: the condition classes
(condition.py), then those of the other modules. -/
def packageNames : List Str :=
  ["Operation", "ConditionError", "ConditionSet", "ConditionBase", "Condition",
    "AbsoluteCondition", "WhileNot", "Always", "Never", "CompositeCondition", "All", "Any",
    "Not", "NWhen", "TimeInterval", "TimeTermination", "BeforeConsiderationSetExecution",
    "AtConsiderationSetExecution", "AfterConsiderationSetExecution",
    "AfterNConsiderationSetExecutions", "BeforePass", "AtPass", "AfterPass", "AfterNPasses",
    "EveryNPasses", "BeforeEnvironmentStateUpdate", "AtEnvironmentStateUpdate",
    "AfterEnvironmentStateUpdate", "AfterNEnvironmentStateUpdates", "AtEnvironmentSequence",
    "AfterEnvironmentSequence", "AfterNEnvironmentSequences", "BeforeNCalls", "AtNCalls",
    "AfterCall", "AfterNCalls", "AfterNCallsCombined", "EveryNCalls", "JustRan", "AllHaveRun",
    "WhenFinished", "WhenFinishedAny", "WhenFinishedAll", "AtEnvironmentStateUpdateStart",
    "AtEnvironmentStateUpdateNStart", "AtEnvironmentSequenceStart",
    "AtEnvironmentSequenceNStart", "Threshold", "GraphStructureCondition",
    "CustomGraphStructureCondition", "BeforeNodes", "BeforeNode", "WithNode", "AfterNodes",
    "AfterNode", "AddEdgeTo", "RemoveEdgeFrom"].map String.toList

/-- The names of the other modules of the package. -/
def otherNames : List Str :=
  ["Scheduler", "SchedulerError", "SchedulingMode", "Clock", "TimeScale", "Time", "SimpleTime",
    "TimeHistoryTree", "TimeScaleError", "set_time_scale_alias",
    "remove_time_scale_alias", "clone_graph", "dependency_dict_to_networkx_digraph",
    "disable_debug_logging", "enable_debug_logging", "get_ancestors", "get_descendants",
    "get_receivers", "get_simple_cycles", "networkx_digraph_to_dependency_dict",
    "output_graph_image"].map String.toList

/-- Each name refers to something of its own. -/
def numbered (l : List Str) : Dict Str Val := l.zipIdx.map fun p => (p.1, .other p.2)

/-- The names as they are after `import graph_scheduler`. -/
def imported : Names where
  aliases := []
  scale := numbered (["get_parent", "get_child"].map String.toList)
  time := []
  simple := (["absolute", "environment_sequence", "environment_state_update",
    "consideration_set_execution"].map fun x => (String.toList x, .other 0))
  cond := numbered packageNames
  pkg := numbered (packageNames ++ otherNames)
  condAll := packageNames
  pkgAll := packageNames ++ otherNames

/-- A name for `TimeScale.ENVIRONMENT_STATE_UPDATE`, and its class name. -/
def trial : Str := "TRIAL_RUN".toList
def trialClass : Str := "TrialRun".toList

theorem trial_class : Spec.ClassName trial trialClass :=
  ⟨["TRIAL".toList, "RUN".toList], by decide, by decide, by decide, by decide⟩

theorem trial_free : Spec.Free imported trial :=
  ⟨fun t => by cases t <;> decide, by decide⟩

/-- C73.  Setting an alias with a name that is no time scale yet succeeds.  The name then
is the time scale, an attribute of that name in lower case reads and writes the value of
the scale of a `Time`, and a `Time` prints it instead of the scale's own name. -/
theorem C73_alias {s : Names} {name seg : Str} (h : Spec.Free s name)
    (hs : Spec.ClassName name seg) (ts : TimeScale) :
    (s.setAlias name (.inl ts)).2 = .ok () ∧
    (s.setAlias name (.inl ts)).1.scaleNamed name = some ts ∧
    (∀ t, (s.setAlias name (.inl ts)).1.timeAttr t (Str.lower name) = .ok (t.at_ ts)) ∧
    (∀ t v, ((s.setAlias name (.inl ts)).1.setTimeAttr t (Str.lower name) v).at_
      = fun ts' => if ts' = ts then v else t.at_ ts') ∧
    (∀ t ex, ts ∉ ex →
      (Str.lower name, t.at_ ts) ∈ (s.setAlias name (.inl ts)).1.timeRepr t ex) := by
  rw [Names.setAlias_free h hs ts]
  refine ⟨rfl, ?_, ?_, ?_, ?_⟩
  · have : TimeScale.all.find? (fun ts => decide (ts.name = name)) = none := by
      simp only [List.find?_eq_none, decide_eq_true_eq]
      exact fun t _ => h.member t
    simp [Names.scaleNamed, this, Dict.get?_set]
  · intro t
    simp [Names.timeAttr, Dict.get?_set, Time.get]
  · intro t v
    simp [Names.setTimeAttr, Dict.get?_set, Time.set]
  · intro t ex hex
    simp only [Names.timeRepr, List.mem_map, List.mem_filter, List.mem_reverse]
    exact ⟨ts, ⟨ts.mem_all, by simpa using hex⟩, by simp [Dict.get?_set, Time.get]⟩

example : (imported.setAlias trial (.inl .environment_state_update)).2 = .ok () :=
  (C73_alias trial_free trial_class _).1

/-- C73.  The alias is an attribute of the simplified time of a clock too, with the value of
its scale; reading it raises `AttributeError` if it is an alias of `PASS` or `LIFE`, which
the simplified time leaves out. -/
theorem C73_simple_time {s : Names} {name seg : Str} (h : Spec.Free s name)
    (hs : Spec.ClassName name seg) (ts : TimeScale) (t : Time) :
    (s.setAlias name (.inl ts)).1.simpleAttr t (Str.lower name)
      = if ts = .pass ∨ ts = .life then .error .attributeError else .ok (t.at_ ts) := by
  rw [Names.setAlias_free h hs ts]
  cases ts <;> simp [Names.simpleAttr, Dict.get?_set, Names.simpleHas, Time.get]

example : (imported.setAlias trial (.inl .pass)).1.simpleAttr Time.zero (Str.lower trial)
    = .error .attributeError := C73_simple_time trial_free trial_class _ _

/-- C73.  A new `Time` that is given a value by the alias is the one that is given the
value by the scale's own name, if that name is not one of the scales' own. -/
theorem C73_new_time {s : Names} {name seg : Str} (h : Spec.Free s name)
    (hs : Spec.ClassName name seg) (ts : TimeScale)
    (ha : ∀ t : TimeScale, t.attr ≠ Str.lower name)
    (hother : ∀ t a, t ≠ ts → Dict.get? s.aliases t = some a →
      Str.lower a ≠ Str.lower name ∧ ∀ t' : TimeScale, Str.lower a ≠ t'.attr) (v : Nat) :
    (s.setAlias name (.inl ts)).1.newTime [(Str.lower name, v)]
      = (s.setAlias name (.inl ts)).1.newTime [(ts.attr, v)] ∧
    ((s.setAlias name (.inl ts)).1.newTime [(Str.lower name, v)]).at_ ts = v := by
  have hany : (TimeScale.all.any fun t => decide (t.attr = Str.lower name)) = false := by
    simp only [List.any_eq_false, decide_eq_true_eq]
    exact fun t _ => ha t
  rw [Names.setAlias_free h hs ts]
  constructor
  · simp only [Names.newTime, Dict.get?_set]
    congr 1
    funext t
    by_cases ht : ts = t
    · subst ht
      have := ha ts
      simp [hany, Dict.get?_cons, this]
    · simp only [if_neg ht]
      have hta : ts.attr ≠ t.attr := by cases ts <;> cases t <;> first | (exact absurd rfl ht) | decide
      cases hg : Dict.get? s.aliases t with
      | none => simp [Dict.get?_cons, hta, Ne.symm (ha t)]
      | some a =>
        obtain ⟨h1, h2⟩ := hother t a (Ne.symm ht) hg
        simp [Dict.get?_cons, hta, Ne.symm (ha t), Ne.symm h1, Ne.symm (h2 ts)]
  · simp only [Names.newTime, Dict.get?_set, if_true, hany, Bool.false_eq_true, if_false,
      Dict.get?_cons]

example : ((imported.setAlias trial (.inl .environment_state_update)).1.newTime
    [("trial_run".toList, 7)]).at_ .environment_state_update = 7 := by
  have : "trial_run".toList = Str.lower trial := by decide
  rw [this]
  exact (C73_new_time trial_free trial_class _ (fun t => by cases t <;> decide)
    (fun t a _ h => by simp [imported] at h) 7).2

/-- C73.  A string can stand for the time scale that it names, be it a member of the
enumeration or an alias. -/
theorem C73_by_name {s : Names} {x : Str} {ts : TimeScale}
    (hx : ts.name = x ∨ (∀ t : TimeScale, t.name ≠ x) ∧ Dict.get? s.scale x = some (.scale ts))
    (name : Str) : s.setAlias name (.inr x) = s.setAlias name (.inl ts) := by
  have : s.scaleNamed x = some ts := by
    rcases hx with rfl | ⟨h1, h2⟩
    · cases ts <;> rfl
    · have : TimeScale.all.find? (fun ts => decide (ts.name = x)) = none := by
        simp only [List.find?_eq_none, decide_eq_true_eq]
        exact fun t _ => h1 t
      simp [Names.scaleNamed, this, h2]
  simp only [Names.setAlias, Names.target, this]

example : imported.setAlias trial (.inr "PASS".toList) = imported.setAlias trial (.inl .pass) :=
  C73_by_name (ts := .pass) (.inl rfl) _

/-- C73.  Every name of the package that contains the class name of the scale gets a
counterpart with the class name of the alias in its place, which refers to the same
thing, both in the package and in its module of conditions, and is listed in `__all__` of
both.  No other name is changed. -/
theorem C73_conditions {s : Names} {name seg : Str} (h : Spec.Free s name)
    (hs : Spec.ClassName name seg) {ts : TimeScale} {old : Str}
    (hold : Spec.ClassName ts.name old) (wf : Dict.WF s.pkg) (hd : Spec.NoClash s old seg) :
    (∀ x z, x ∈ Dict.keys s.pkg → old <:+: x → Spec.Replaces old seg x z →
      Dict.get? (s.setAlias name (.inl ts)).1.pkg z = Dict.get? s.pkg x ∧
      Dict.get? (s.setAlias name (.inl ts)).1.cond z = Dict.get? s.pkg x ∧
      z ∈ (s.setAlias name (.inl ts)).1.pkgAll ∧ z ∈ (s.setAlias name (.inl ts)).1.condAll) ∧
    (∀ z, (∀ x ∈ Dict.keys s.pkg, old <:+: x → ¬ Spec.Replaces old seg x z) →
      Dict.get? (s.setAlias name (.inl ts)).1.pkg z = Dict.get? s.pkg z ∧
      Dict.get? (s.setAlias name (.inl ts)).1.cond z = Dict.get? s.cond z ∧
      (z ∈ (s.setAlias name (.inl ts)).1.pkgAll ↔ z ∈ s.pkgAll) ∧
      (z ∈ (s.setAlias name (.inl ts)).1.condAll ↔ z ∈ s.condAll)) := by
  have ho : old = ts.className := by
    have := hold.eq.1
    rw [ts.className_spec.eq.1] at this
    simpa using this.symm
  have h0 := hold.eq.2
  rw [Names.setAlias_free h hs ts, ← ho]
  have hwf := Names.wf_added wf (hd.inj h0)
  refine ⟨fun x z hx hox hz => ?_, fun z hz => ?_⟩
  · have e := hz.eq h0
    subst e
    have hg := Names.get?_added wf (hd.inj h0) hx hox
    have hm : Str.replace old seg x ∈ Dict.keys (Names.added old seg s.pkg) :=
      Names.mem_keys_added.2 ⟨x, hx, hox, rfl⟩
    obtain ⟨v, hv⟩ := Option.isSome_iff_exists.1 (Dict.get?_isSome.2 hx)
    rw [hv] at hg ⊢
    simp [Dict.get?_update _ _ hwf, hg, hm]
  · have hm : z ∉ Dict.keys (Names.added old seg s.pkg) := by
      intro hm
      obtain ⟨x, hx, hox, rfl⟩ := Names.mem_keys_added.1 hm
      exact hz x hx hox (Str.replaces h0 seg x)
    have hg := Dict.get?_eq_none.2 hm
    simp [Dict.get?_update _ _ hwf, hg, hm]

/-- Decides `Spec.NoClash`. -/
theorem apart_of {s : Names} {old new : Str} (h0 : old ≠ [])
    (h : ∀ x ∈ Dict.keys s.pkg, Str.occurs old x = true → ∀ y ∈ Dict.keys s.pkg,
      Str.occurs old y = true →
      Str.replace old new x = Str.replace old new y → x = y) : Spec.NoClash s old new :=
  fun x hx y hy ox oy z zx zy => h x hx ((Str.occurs_iff _ _).2 ox) y hy
    ((Str.occurs_iff _ _).2 oy) ((zx.eq h0).symm.trans (zy.eq h0))

theorem trial_apart : Spec.NoClash imported TimeScale.environment_state_update.className
    trialClass :=
  apart_of (TimeScale.className_ne _) (by decide +kernel)

/-- `AtTrialRun` is `AtEnvironmentStateUpdate`. -/
example : Dict.get? (imported.setAlias trial (.inl .environment_state_update)).1.pkg
      "AtTrialRun".toList
    = Dict.get? imported.pkg "AtEnvironmentStateUpdate".toList ∧
    Dict.get? imported.pkg "AtEnvironmentStateUpdate".toList = some (.other 26) := by
  refine ⟨((C73_conditions trial_free trial_class (TimeScale.className_spec _)
    (by decide +kernel) trial_apart).1 "AtEnvironmentStateUpdate".toList _ (by decide +kernel)
    ((Str.occurs_iff _ _).1 (by decide +kernel)) ?_).1, by decide +kernel⟩
  have : "AtTrialRun".toList = Str.replace TimeScale.environment_state_update.className
    trialClass "AtEnvironmentStateUpdate".toList := by decide +kernel
  rw [this]
  exact Str.replaces (TimeScale.className_ne _) _ _

/-- C73.  A name that is an alias already cannot be set again, for whichever scale: the
call raises `ValueError` and changes nothing. -/
theorem C73_taken (s : Names) (name : Str) (tgt : TimeScale ⊕ Str)
    (h : ∃ p ∈ s.aliases, p.2 = name) : s.setAlias name tgt = (s, .error .valueError) := by
  have : s.aliased name ≠ [] := by
    obtain ⟨p, hp, rfl⟩ := h
    intro h
    simp only [Names.aliased, List.map_eq_nil_iff, List.filter_eq_nil_iff] at h
    simpa using h p hp
  simp [Names.setAlias, this]

example : (imported.setAlias trial (.inl .pass)).1.setAlias trial (.inl .life)
    = ((imported.setAlias trial (.inl .pass)).1, .error .valueError) :=
  C73_taken _ _ _ (by decide +kernel)

/-- C73.  Naming an alias like a member of the enumeration raises `AttributeError`, but
leaves the alias half set: a `Time` then prints the pass under the name of another
scale. -/
theorem C73_half_set :
    (imported.setAlias "LIFE".toList (.inl .pass)).2 = .error .attributeError ∧
    ("life".toList, 3) ∈ (imported.setAlias "LIFE".toList (.inl .pass)).1.timeRepr
      (Time.zero.set .pass 3) [] ∧
    (imported.setAlias "LIFE".toList (.inl .pass)).1.scaleNamed "LIFE".toList = some .life := by
  decide +kernel

theorem trial_unmentioned : Spec.Unmentioned imported trial trialClass := by
  have key : ∀ l : List Str, (∀ x ∈ l, Str.occurs trialClass x = false) →
      ∀ x ∈ l, ¬ trialClass <:+: x := fun l h x hx hi => by
    have := (Str.occurs_iff _ _).2 hi
    rw [h x hx] at this
    cases this
  exact ⟨by decide, by decide, by decide, key _ (by decide +kernel), key _ (by decide +kernel),
    key _ (by decide +kernel), key _ (by decide +kernel)⟩

/-- C74.  If the scale has no other alias, nothing is called like the new one so far, and
no name contains its class name, then setting the alias and removing it again leaves
every name as it was. -/
theorem C74_undo {s : Names} {name seg : Str} (h : Spec.Free s name)
    (hs : Spec.ClassName name seg) {ts : TimeScale} {old : Str}
    (hold : Spec.ClassName ts.name old) (hu : Spec.Unmentioned s name seg)
    (ht : ts ∉ Dict.keys s.aliases) (wf : Dict.WF s.pkg) (hd : Spec.NoClash s old seg) :
    (s.setAlias name (.inl ts)).1.removeAlias name = (s, .ok ()) := by
  have ho : old = ts.className := by
    have := hold.eq.1
    rw [ts.className_spec.eq.1] at this
    simpa using this.symm
  subst ho
  have hwf := Names.wf_added wf (hd.inj hold.eq.2)
  rw [Names.setAlias_new h hs hu ht hwf]
  have := Names.removeAlias_free (r := Names.none) h hs hu ht hwf (fun k hk => by
    obtain ⟨x, _, ho, rfl⟩ := Names.mem_keys_added.1 hk
    exact Str.infix_replace ts.className_ne seg ho) (by simp [Names.none]) (by simp [Names.none])
  rwa [Names.app_none, Names.app_none] at this

example : (imported.setAlias trial (.inl .environment_state_update)).1.removeAlias trial
    = (imported, .ok ()) :=
  C74_undo trial_free trial_class (TimeScale.className_spec _) trial_unmentioned (by decide)
    (by decide +kernel) trial_apart

/-- C74.  Removing a name that is no alias does nothing. -/
theorem C74_unknown (s : Names) (name : Str) (h : ∀ p ∈ s.aliases, p.2 ≠ name) :
    s.removeAlias name = (s, .ok ()) := by
  have : s.aliased name = [] := by
    simp only [Names.aliased, List.map_eq_nil_iff, List.filter_eq_nil_iff]
    intro p hp
    simpa using h p hp
  simp [Names.removeAlias, this]

example : imported.removeAlias "LIFE".toList = (imported, .ok ()) :=
  C74_unknown _ _ (by decide)

/-- C74.  Of two aliases of different scales, the first can be removed before the second:
what remains is as if only the second had been set.  The names of the two must not get in
each other's way: no name made for one contains the class name of the other or of its
scale. -/
theorem C74_any_order {s : Names} {name₁ seg₁ name₂ seg₂ : Str} {ts₁ ts₂ : TimeScale}
    {old₁ old₂ : Str} (hts : ts₁ ≠ ts₂)
    (hold₁ : Spec.ClassName ts₁.name old₁) (hold₂ : Spec.ClassName ts₂.name old₂)
    (h₁ : Spec.Free s name₁) (hs₁ : Spec.ClassName name₁ seg₁)
    (hu₁ : Spec.Unmentioned s name₁ seg₁) (ht₁ : ts₁ ∉ Dict.keys s.aliases)
    (h₂ : Spec.Free s name₂) (hs₂ : Spec.ClassName name₂ seg₂)
    (hu₂ : Spec.Unmentioned s name₂ seg₂) (ht₂ : ts₂ ∉ Dict.keys s.aliases)
    (wf : Dict.WF s.pkg) (hd₁ : Spec.NoClash s old₁ seg₁) (hd₂ : Spec.NoClash s old₂ seg₂)
    (hne : Str.lower name₁ ≠ Str.lower name₂)
    (hx₁ : ∀ x ∈ Dict.keys s.pkg, old₁ <:+: x → ∀ z, Spec.Replaces old₁ seg₁ x z →
      ¬ old₂ <:+: z ∧ ¬ seg₂ <:+: z)
    (hx₂ : ∀ x ∈ Dict.keys s.pkg, old₂ <:+: x → ∀ z, Spec.Replaces old₂ seg₂ x z →
      ¬ seg₁ <:+: z) :
    ((s.setAlias name₁ (.inl ts₁)).1.setAlias name₂ (.inl ts₂)).1.removeAlias name₁
      = ((s.setAlias name₂ (.inl ts₂)).1, .ok ()) := by
  have ho : ∀ {ts : TimeScale} {old : Str}, Spec.ClassName ts.name old → old = ts.className := by
    intro ts old hold
    have := hold.eq.1
    rw [ts.className_spec.eq.1] at this
    simpa using this.symm
  have e₁ := ho hold₁
  have e₂ := ho hold₂
  subst e₁ e₂
  have hname : name₁ ≠ name₂ := fun e => hne (by rw [e])
  have hwf₁ := Names.wf_added wf (hd₁.inj hold₁.eq.2)
  have hwf₂ := Names.wf_added wf (hd₂.inj hold₂.eq.2)
  have hm₁ : ∀ k ∈ Dict.keys (Names.added ts₁.className seg₁ s.pkg),
      seg₁ <:+: k ∧ ¬ ts₂.className <:+: k ∧ ¬ seg₂ <:+: k := fun k hk => by
    obtain ⟨x, hx, ho, rfl⟩ := Names.mem_keys_added.1 hk
    exact ⟨Str.infix_replace ts₁.className_ne seg₁ ho,
      hx₁ x hx ho _ (Str.replaces ts₁.className_ne seg₁ x)⟩
  have hm₂ : ∀ k ∈ Dict.keys (Names.added ts₂.className seg₂ s.pkg), ¬ seg₁ <:+: k :=
    fun k hk => by
      obtain ⟨x, hx, ho, rfl⟩ := Names.mem_keys_added.1 hk
      exact hx₂ x hx ho _ (Str.replaces ts₂.className_ne seg₂ x)
  rw [Names.setAlias_new h₁ hs₁ hu₁ ht₁ hwf₁, Names.setAlias_new h₂ hs₂ hu₂ ht₂ hwf₂]
  generalize hE : Names.added ts₁.className seg₁ s.pkg = E at hwf₁ hm₁
  have hadd : Names.added ts₂.className seg₂ (s.app (Names.ofAlias name₁ ts₁ E)).pkg
      = Names.added ts₂.className seg₂ s.pkg := by
    show Names.added _ _ (s.pkg ++ E) = _
    rw [Names.added_append, Names.added_none fun k hk => (hm₁ k hk).2.1, List.append_nil]
  have hF : Spec.Free (s.app (Names.ofAlias name₁ ts₁ E)) name₂ := by
    refine ⟨h₂.member, fun p hp => ?_⟩
    simp only [Names.app, Names.ofAlias, List.mem_append, List.mem_singleton] at hp
    rcases hp with hp | rfl
    · exact h₂.unused p hp
    · exact hname
  have hU : Spec.Unmentioned (s.app (Names.ofAlias name₁ ts₁ E)) name₂ seg₂ := by
    refine ⟨?_, ?_, ?_, ?_, ?_, ?_, ?_⟩ <;>
      simp only [Names.app, Names.ofAlias, Dict.keys_append, Dict.keys_cons, Dict.keys_nil,
        List.mem_append, List.mem_singleton, not_or]
    · exact ⟨hu₂.scale, Ne.symm hname⟩
    · exact ⟨hu₂.time, Ne.symm hne⟩
    · exact ⟨hu₂.simple, Ne.symm hne⟩
    · exact fun x hx => hx.elim (hu₂.cond x) fun h => (hm₁ x h).2.2
    · exact fun x hx => hx.elim (hu₂.pkg x) fun h => (hm₁ x h).2.2
    · exact fun x hx => hx.elim (hu₂.condAll x) fun h => (hm₁ x h).2.2
    · exact fun x hx => hx.elim (hu₂.pkgAll x) fun h => (hm₁ x h).2.2
  have hT : ts₂ ∉ Dict.keys (s.app (Names.ofAlias name₁ ts₁ E)).aliases := by
    simp only [Names.app, Names.ofAlias, Dict.keys_append, Dict.keys_cons, Dict.keys_nil,
      List.mem_append, List.mem_singleton, not_or]
    exact ⟨ht₂, Ne.symm hts⟩
  simp only
  rw [Names.setAlias_new hF hs₂ hU hT (hadd ▸ hwf₂), hadd, Names.app_assoc]
  refine Names.removeAlias_free h₁ hs₁ hu₁ ht₁ hwf₁ (fun k hk => (hm₁ k hk).1) ?_ ?_
  · simpa [Names.ofAlias] using Ne.symm hname
  · exact hm₂

/-- A name for `TimeScale.PASS`, and its class name. -/
def round : Str := "ROUND".toList
def roundClass : Str := "Round".toList

theorem round_class : Spec.ClassName round roundClass :=
  ⟨["ROUND".toList], by decide, by decide, by decide, by decide⟩

theorem round_free : Spec.Free imported round :=
  ⟨fun t => by cases t <;> decide, by decide⟩

theorem round_unmentioned : Spec.Unmentioned imported round roundClass := by
  have key : ∀ l : List Str, (∀ x ∈ l, Str.occurs roundClass x = false) →
      ∀ x ∈ l, ¬ roundClass <:+: x := fun l h x hx hi => by
    have := (Str.occurs_iff _ _).2 hi
    rw [h x hx] at this
    cases this
  exact ⟨by decide, by decide, by decide, key _ (by decide +kernel), key _ (by decide +kernel),
    key _ (by decide +kernel), key _ (by decide +kernel)⟩

theorem round_apart : Spec.NoClash imported TimeScale.pass.className roundClass :=
  apart_of (TimeScale.className_ne _) (by decide +kernel)

/-- Decides that no name made by a replacement contains `sub`. -/
theorem none_with {l : List Str} {old new sub : Str} (h0 : old ≠ [])
    (h : ∀ x ∈ l, Str.occurs old x = true → Str.occurs sub (Str.replace old new x) = false) :
    ∀ x ∈ l, old <:+: x → ∀ z, Spec.Replaces old new x z → ¬ sub <:+: z := by
  intro x hx ho z hz hi
  have := h x hx ((Str.occurs_iff _ _).2 ho)
  rw [← hz.eq h0, (Str.occurs_iff _ _).2 hi] at this
  cases this

example : ((imported.setAlias round (.inl .pass)).1.setAlias trial
      (.inl .environment_state_update)).1.removeAlias round
    = ((imported.setAlias trial (.inl .environment_state_update)).1, .ok ()) :=
  C74_any_order (by decide) (TimeScale.className_spec _) (TimeScale.className_spec _) round_free
    round_class round_unmentioned (by decide) trial_free trial_class trial_unmentioned (by decide)
    (by decide +kernel) round_apart trial_apart (by decide)
    (fun x hx ho z hz => ⟨none_with (TimeScale.className_ne _) (by decide +kernel) x hx ho z hz,
      none_with (TimeScale.className_ne _) (by decide +kernel) x hx ho z hz⟩)
    (none_with (TimeScale.className_ne _) (by decide +kernel))

/-- Calls of `set_time_scale_alias` and of `remove_time_scale_alias`. -/
inductive AliasCall where
  | set (name : Str) (target : TimeScale ⊕ Str)
  | remove (name : Str)

/-- The names after a call, also if it raises. -/
def AliasCall.run (s : Names) : AliasCall → Names
  | .set name tgt => (s.setAlias name tgt).1
  | .remove name => (s.removeAlias name).1

theorem setAlias_aliases (s : Names) (name : Str) (tgt : TimeScale ⊕ Str) :
    (s.setAlias name tgt).1.aliases = s.aliases ∨
      s.aliased name = [] ∧ ∃ ts, (s.setAlias name tgt).1.aliases = Dict.set s.aliases ts name := by
  unfold Names.setAlias
  split
  · exact .inl rfl
  · rename_i h
    split
    · exact .inl rfl
    · rename_i ts _
      right
      refine ⟨by simpa using h, ts, ?_⟩
      dsimp only
      split
      · rfl
      · split
        · rfl
        · rw [Names.foldl_addName]

theorem dropNames_aliases (new : Str) (ps : List (Str × Val)) (s : Names) :
    (Names.dropNames new ps s).1.aliases = s.aliases := by
  induction ps generalizing s with
  | nil => rfl
  | cons p ps ih =>
    have hd : (s.dropName p.1).1.aliases = s.aliases := by
      unfold Names.dropName
      split
      · rfl
      · dsimp only
        split
        · rfl
        · split
          · rfl
          · split <;> rfl
    unfold Names.dropNames
    split
    · split
      · rename_i h; rw [h] at hd; exact hd
      · rename_i h; rw [h] at hd; rw [ih]; exact hd
    · exact ih s

theorem removeAlias_aliases (s : Names) (name : Str) :
    (s.removeAlias name).1.aliases = s.aliases ∨
      ∃ ts, (s.removeAlias name).1.aliases = Dict.erase s.aliases ts := by
  unfold Names.removeAlias
  split
  · exact .inl rfl
  · exact .inl rfl
  · rename_i ts _
    right
    refine ⟨ts, ?_⟩
    dsimp only
    repeat' (first | rfl | exact dropNames_aliases _ _ _ | split | dsimp only)

/-- No two scales have the same alias, and no scale has two. -/
def OneToOne (d : Dict TimeScale Str) : Prop := d.Pairwise fun p q => p.1 ≠ q.1 ∧ p.2 ≠ q.2

theorem OneToOne.erase {d : Dict TimeScale Str} (h : OneToOne d) (ts : TimeScale) :
    OneToOne (Dict.erase d ts) := by
  have : (Dict.erase d ts).Sublist d := by
    clear h
    induction d with
    | nil => exact List.Sublist.refl _
    | cons p d ih =>
      obtain ⟨a, b⟩ := p
      unfold Dict.erase
      split
      · exact List.sublist_cons_self _ _
      · exact ih.cons_cons _
  exact h.sublist this

theorem mem_set {d : Dict TimeScale Str} {ts : TimeScale} {a : Str} {q : TimeScale × Str}
    (h : q ∈ Dict.set d ts a) : q ∈ d ∨ q = (ts, a) := by
  induction d with
  | nil => right; simpa [Dict.set] using h
  | cons p d ih =>
    obtain ⟨k, b⟩ := p
    unfold Dict.set at h
    split at h
    · rename_i hk
      rcases List.mem_cons.1 h with rfl | h
      · right; rw [hk]
      · left; exact List.mem_cons_of_mem _ h
    · rcases List.mem_cons.1 h with rfl | h
      · left; simp
      · exact (ih h).imp (List.mem_cons_of_mem _) id

theorem OneToOne.set {d : Dict TimeScale Str} (h : OneToOne d) (ts : TimeScale) {a : Str}
    (ha : ∀ p ∈ d, p.2 ≠ a) : OneToOne (Dict.set d ts a) := by
  induction d with
  | nil => exact List.pairwise_singleton _ _
  | cons p d ih =>
    obtain ⟨k, b⟩ := p
    rw [OneToOne, List.pairwise_cons] at h
    unfold Dict.set
    split
    · rw [OneToOne, List.pairwise_cons]
      exact ⟨fun q hq => ⟨(h.1 q hq).1, Ne.symm (ha q (by simp [hq]))⟩, h.2⟩
    · rename_i hk
      rw [OneToOne, List.pairwise_cons]
      refine ⟨fun q hq => ?_, ih h.2 fun p hp => ha p (by simp [hp])⟩
      rcases mem_set hq with hq | rfl
      · exact h.1 q hq
      · exact ⟨hk, ha (k, b) (by simp)⟩

theorem OneToOne.aliased {s : Names} (h : OneToOne s.aliases) (name : Str) :
    (s.aliased name).length ≤ 1 := by
  unfold Names.aliased
  generalize s.aliases = d at h
  induction d with
  | nil => simp
  | cons p d ih =>
    rw [OneToOne, List.pairwise_cons] at h
    rw [List.filter_cons]
    split
    · rename_i hp
      have : d.filter (fun p => decide (p.2 = name)) = [] := by
        rw [List.filter_eq_nil_iff]
        intro q hq
        simp only [decide_eq_true_eq] at hp ⊢
        exact fun e => (h.1 q hq).2 (hp.trans e.symm)
      simp [this]
    · exact ih h.2

theorem aliasCall_oneToOne {s : Names} (h : OneToOne s.aliases) (c : AliasCall) :
    OneToOne (c.run s).aliases := by
  cases c with
  | set name tgt =>
    show OneToOne (s.setAlias name tgt).1.aliases
    rcases setAlias_aliases s name tgt with e | ⟨hn, ts, e⟩
    · rw [e]; exact h
    · rw [e]
      refine h.set ts fun p hp he => ?_
      simp only [Names.aliased, List.map_eq_nil_iff, List.filter_eq_nil_iff] at hn
      exact hn p hp (by simpa using he)
  | remove name =>
    show OneToOne (s.removeAlias name).1.aliases
    rcases removeAlias_aliases s name with e | ⟨ts, e⟩
    · rw [e]; exact h
    · rw [e]; exact h.erase ts

theorem delattr_error {d : Dict Str Val} {x : Str} {e : Err}
    (h : Names.delattr d x = .error e) : e = .attributeError := by
  unfold Names.delattr at h
  split at h
  · cases h
  · injection h with h; exact h.symm

theorem removeFirst_error {l : List Str} {x : Str} {e : Err}
    (h : Names.removeFirst l x = .error e) : e = .valueError := by
  unfold Names.removeFirst at h
  split at h
  · cases h
  · injection h with h; exact h.symm

theorem classStr_error {x : Str} {e : Err} (h : Str.classStr x = .error e) :
    e = .indexError := by
  unfold Str.classStr at h
  generalize Str.splitFrom [] x = ws at h
  induction ws with
  | nil => cases h
  | cons w ws ih =>
    unfold Str.capitals at h
    cases w with
    | nil => simp only [Str.capital] at h; injection h with h; exact h.symm
    | cons c cs =>
      simp only [Str.capital] at h
      split at h
      · rename_i h2; injection h with h; exact ih (h ▸ h2)
      · cases h

theorem dropNames_no_assertion (new : Str) (ps : List (Str × Val)) (s : Names) :
    (Names.dropNames new ps s).2 ≠ .error .assertionError := by
  induction ps generalizing s with
  | nil => simp [Names.dropNames]
  | cons p ps ih =>
    have hd : (s.dropName p.1).2 ≠ .error .assertionError := by
      unfold Names.dropName
      split
      · rename_i h; rw [delattr_error h]; simp
      · dsimp only
        split
        · rename_i h; rw [delattr_error h]; simp
        · split
          · rename_i h; rw [removeFirst_error h]; simp
          · split
            · rename_i h; rw [removeFirst_error h]; simp
            · simp
    unfold Names.dropNames
    split
    · split
      · rename_i h; rw [h] at hd; exact hd
      · exact ih _
    · exact ih s

/-- C74.  Whatever aliases are set and removed, no two scales ever have the same one, and
no scale has two: the assertion in `remove_time_scale_alias` never fails. -/
theorem C74_one_scale (s : Names) (h0 : s.aliases = []) (calls : List AliasCall) :
    (∀ p ∈ (calls.foldl AliasCall.run s).aliases,
      ∀ q ∈ (calls.foldl AliasCall.run s).aliases, p.1 = q.1 ∨ p.2 = q.2 → p = q) ∧
    ∀ name, ((calls.foldl AliasCall.run s).removeAlias name).2 ≠ .error .assertionError := by
  have key : ∀ (l : List AliasCall) (s : Names), OneToOne s.aliases →
      OneToOne (l.foldl AliasCall.run s).aliases := by
    intro l
    induction l with
    | nil => exact fun _ h => h
    | cons c l ih => exact fun s h => ih _ (aliasCall_oneToOne h c)
  have hk := key calls s (by rw [h0]; exact List.Pairwise.nil)
  generalize calls.foldl AliasCall.run s = r at hk
  refine ⟨?_, fun name => ?_⟩
  · intro p hp q hq hpq
    generalize r.aliases = d at hk hp hq
    clear h0 key
    induction d with
    | nil => simp at hp
    | cons a d ih =>
      rw [OneToOne, List.pairwise_cons] at hk
      rcases List.mem_cons.1 hp with rfl | hp <;> rcases List.mem_cons.1 hq with rfl | hq
      · rfl
      · have := hk.1 q hq
        exact absurd hpq fun h => h.elim this.1 this.2
      · rename_i hp'
        have := hk.1 p hp'
        exact absurd hpq fun h => h.elim (fun e => this.1 e.symm) fun e => this.2 e.symm
      · exact ih hk.2 (by assumption) (by assumption)
  · have hl := hk.aliased name
    unfold Names.removeAlias
    split
    · rename_i h; rw [h] at hl; simp at hl
    · simp
    · dsimp only
      split
      · simp
      · split
        · rename_i h; rw [delattr_error h]; simp
        · split
          · rename_i h; rw [delattr_error h]; simp
          · split
            · rename_i h; rw [delattr_error h]; simp
            · split
              · rename_i h; rw [classStr_error h]; simp
              · exact dropNames_no_assertion _ _ _

example : imported.aliases = [] := rfl

/-- C74, why the scale must not have another alias: setting a second alias of a scale makes
the first one impossible to remove. -/
theorem C74_second_alias :
    let s := ((imported.setAlias round (.inl .pass)).1.setAlias "TURN".toList (.inl .pass)).1
    s.removeAlias round = (s, .ok ()) ∧ s.scaleNamed round = some .pass ∧
      "AtRound".toList ∈ s.pkgAll := by
  decide +kernel

/-- C74, why no name may contain the class name of the alias: setting and removing the alias
`AT` removes the class `AtPass` from the package. -/
theorem C74_loses_classes :
    "AtPass".toList ∈ Dict.keys imported.pkg ∧
    (imported.setAlias "AT".toList (.inl .life)).2 = .ok () ∧
    ((imported.setAlias "AT".toList (.inl .life)).1.removeAlias "AT".toList).2 = .ok () ∧
    "AtPass".toList ∉
      Dict.keys ((imported.setAlias "AT".toList (.inl .life)).1.removeAlias "AT".toList).1.pkg := by
  decide +kernel

end GS.Props

import Verif.CondAttrs
import Verif.Props.Args
/-!
# C107: the names of the keyword arguments of a condition
-/

set_option linter.unusedSectionVars false

namespace GS.Spec

/-- Names of keyword arguments that have another effect on a `Condition` than to be passed to its
function. -/
def reserved : List String :=
  ["self", "func", "_owner", "args", "kwargs", "is_satisfied", "_validate_owner",
    "absolute_intervals", "absolute_fixed_points", "is_absolute"]

end GS.Spec

namespace GS.Props
open Spec CondObj
variable {V : Type _} {py : PyVals V} {cargs : List V} {kw : Dict String V}

/-! ## The loop over the keyword arguments -/

theorem setAttrs_spec (l : Dict String V) (o : CondObj V) (hwf : Dict.WF l)
    (hro : ∀ k ∈ Dict.keys l, k ≠ "absolute_intervals" ∧ k ≠ "absolute_fixed_points" ∧ k ≠ "is_absolute")
    (hv : (Dict.get? o.own "_validate_owner" = none ∧ "_validate_owner" ∉ Dict.keys l) ∨
      "owner" ∉ Dict.keys l) :
    ∃ o', setAttrs py l o = .ok o' ∧
      o'.args = (match Dict.get? l "args" with | some v => .inr v | none => o.args) ∧
      o'.kwargs = (match Dict.get? l "kwargs" with | some v => .inr v | none => o.kwargs) ∧
      o'.owner = (match Dict.get? l "owner" with | some v => some v | none => o.owner) ∧
      ∀ k, k ≠ "args" → k ≠ "kwargs" → k ≠ "owner" →
        Dict.get? o'.own k = (match Dict.get? l k with | some v => some v | none => Dict.get? o.own k) := by
  induction l generalizing o with
  | nil => exact ⟨o, rfl, rfl, rfl, rfl, fun _ _ _ _ => rfl⟩
  | cons p l ih =>
    obtain ⟨k, v⟩ := p
    have hk : k ∉ Dict.keys l ∧ Dict.WF l := by
      unfold Dict.WF at hwf ⊢
      rw [Dict.keys_cons, List.nodup_cons] at hwf
      exact hwf
    have hn : ∀ x, x = k → Dict.get? l x = none := by
      rintro x rfl; exact Dict.get?_eq_none.2 hk.1
    obtain ⟨r1, r2, r3⟩ := hro k (by simp)
    have hro' : ∀ k ∈ Dict.keys l, k ≠ "absolute_intervals" ∧ k ≠ "absolute_fixed_points" ∧
        k ≠ "is_absolute" := fun x hx => hro x (by simp [hx])
    have hset : ∃ o1, o.setAttr py k v = .ok o1 ∧
        o1.args = (if k = "args" then .inr v else o.args) ∧
        o1.kwargs = (if k = "kwargs" then .inr v else o.kwargs) ∧
        o1.owner = (if k = "owner" then some v else o.owner) ∧
        o1.own = (if k = "args" ∨ k = "kwargs" ∨ k = "owner" then o.own else Dict.set o.own k v) := by
      unfold setAttr
      by_cases h1 : k = "args"
      · subst h1; exact ⟨_, rfl, rfl, rfl, rfl, rfl⟩
      by_cases h2 : k = "kwargs"
      · subst h2; exact ⟨_, rfl, rfl, rfl, rfl, rfl⟩
      by_cases h3 : k = "owner"
      · subst h3
        have h4 : Dict.get? o.own "_validate_owner" = none := by
          rcases hv with h | h
          · exact h.1
          · exact absurd (by simp) h
        refine ⟨{ o with owner := some v }, ?_, rfl, rfl, rfl, rfl⟩
        simp [setOwner, h4]
      · refine ⟨{ o with own := Dict.set o.own k v }, ?_, ?_, ?_, ?_, ?_⟩ <;> simp [h1, h2, h3, r1, r2, r3]
    obtain ⟨o1, e0, e1, e2, e3, e4⟩ := hset
    have hv' : (Dict.get? o1.own "_validate_owner" = none ∧ "_validate_owner" ∉ Dict.keys l) ∨
        "owner" ∉ Dict.keys l := by
      rcases hv with ⟨g1, g2⟩ | g
      · left
        simp only [Dict.keys_cons, List.mem_cons, not_or] at g2
        refine ⟨?_, g2.2⟩
        rw [e4]
        split
        · exact g1
        · rw [Dict.get?_set, if_neg (fun h => g2.1 h.symm)]; exact g1
      · right
        simp only [Dict.keys_cons, List.mem_cons, not_or] at g
        exact g.2
    obtain ⟨o', k1, k2, k3, k4, k5⟩ := ih o1 hk.2 hro' hv'
    refine ⟨o', ?_, ?_, ?_, ?_, ?_⟩
    · show (match o.setAttr py k v with | .error e => Except.error e | .ok o' => setAttrs py l o') = _
      rw [e0]; exact k1
    · rw [k2, Dict.get?_cons, e1]
      by_cases h : k = "args"
      · rw [if_pos h, if_pos h, hn _ h.symm]
      · rw [if_neg h, if_neg h]
    · rw [k3, Dict.get?_cons, e2]
      by_cases h : k = "kwargs"
      · rw [if_pos h, if_pos h, hn _ h.symm]
      · rw [if_neg h, if_neg h]
    · rw [k4, Dict.get?_cons, e3]
      by_cases h : k = "owner"
      · rw [if_pos h, if_pos h, hn _ h.symm]
      · rw [if_neg h, if_neg h]
    · intro x x1 x2 x3
      rw [k5 x x1 x2 x3, Dict.get?_cons, e4]
      by_cases h : k = x
      · subst h
        rw [hn _ rfl, if_neg (by simp [x1, x2, x3]), Dict.get?_set, if_pos rfl, if_pos rfl]
      · rw [if_neg h]
        rcases Dict.get? l x with _ | y
        · dsimp only
          split
          · rfl
          · rw [Dict.get?_set, if_neg h]
        · rfl

theorem keys_filter_owner : Dict.keys (kw.filter fun p => decide (p.1 ≠ "_owner")) =
    (Dict.keys kw).filter fun k => decide (k ≠ "_owner") := by
  unfold Dict.keys
  rw [List.filter_map]
  rfl

theorem get?_filter_owner {k : String} (hk : k ≠ "_owner") :
    Dict.get? (kw.filter fun p => decide (p.1 ≠ "_owner")) k = Dict.get? kw k := by
  induction kw with
  | nil => rfl
  | cons p l ih =>
    obtain ⟨x, v⟩ := p
    rw [List.filter_cons]
    by_cases hx : x = "_owner"
    · subst hx
      simp only [ne_eq, not_true_eq_false, decide_false, Bool.false_eq_true, if_false]
      rw [ih, Dict.get?_cons, if_neg (fun h => hk h.symm)]
    · simp only [ne_eq, hx, not_false_eq_true, decide_true, if_true]
      rw [Dict.get?_cons, Dict.get?_cons, ih]

/-- A condition whose keyword arguments do not collide with parameters or properties. -/
theorem create_spec (hwf : Dict.WF kw) (h1 : "self" ∉ Dict.keys kw) (h2 : "func" ∉ Dict.keys kw)
    (hro : ∀ k ∈ Dict.keys kw, k ≠ "absolute_intervals" ∧ k ≠ "absolute_fixed_points" ∧ k ≠ "is_absolute")
    (hv : "_validate_owner" ∉ Dict.keys kw ∨ "owner" ∉ Dict.keys kw) :
    ∃ o, create py cargs kw = .ok o ∧
      o.args = (match Dict.get? kw "args" with | some v => .inr v | none => .inl cargs) ∧
      o.kwargs = (match Dict.get? kw "kwargs" with
        | some v => .inr v | none => .inl (kw.filter fun p => decide (p.1 ≠ "_owner"))) ∧
      o.owner = (match Dict.get? kw "owner" with | some v => some v | none => Dict.get? kw "_owner") ∧
      ∀ k, k ≠ "args" → k ≠ "kwargs" → k ≠ "owner" → k ≠ "_owner" →
        Dict.get? o.own k = Dict.get? kw k := by
  have hsub : ∀ k ∈ Dict.keys (kw.filter fun p => decide (p.1 ≠ "_owner")), k ∈ Dict.keys kw := by
    intro k hk
    rw [keys_filter_owner] at hk
    exact (List.mem_filter.1 hk).1
  have hwf' : Dict.WF (kw.filter fun p => decide (p.1 ≠ "_owner")) := by
    unfold Dict.WF at hwf ⊢
    rw [keys_filter_owner]
    exact hwf.filter _
  obtain ⟨o, k1, k2, k3, k4, k5⟩ := setAttrs_spec (py := py) _
    ⟨.inl cargs, .inl (kw.filter fun p => decide (p.1 ≠ "_owner")), Dict.get? kw "_owner", []⟩ hwf'
    (fun k hk => hro k (hsub k hk))
    (hv.elim (fun h => .inl ⟨rfl, fun hk => h (hsub _ hk)⟩) fun h => .inr fun hk => h (hsub _ hk))
  refine ⟨o, ?_, ?_, ?_, ?_, fun k x1 x2 x3 x4 => ?_⟩
  · unfold create
    rw [if_neg (by simp [h1, h2])]
    exact k1
  · rw [k2, get?_filter_owner (by decide)]
  · rw [k3, get?_filter_owner (by decide)]
  · rw [k4, get?_filter_owner (by decide)]
  · rw [k5 k x1 x2 x3, get?_filter_owner x4]
    rcases Dict.get? kw k <;> rfl

/-! ## C107 -/

/-- What evaluation does if nothing is replaced: the function is called as C52 says. -/
def asWritten (sig : Sig) (cargs : List V) (kw : Dict String V) (eargs : List V) (e : V)
    (ekw : Dict String V) : Except Err (Evaluation V) :=
  (conditionCall sig cargs kw eargs e ekw).map .calls

theorem filter_owner_none (h : "_owner" ∉ Dict.keys kw) :
    kw.filter (fun p => decide (p.1 ≠ "_owner")) = kw := by
  rw [List.filter_eq_self]
  rintro ⟨k, v⟩ hp
  simp only [ne_eq, decide_not, Bool.not_eq_eq_eq_not, Bool.not_true, decide_eq_false_iff_not]
  rintro rfl
  exact h (List.mem_map.2 ⟨_, hp, rfl⟩)

/-- C107: a condition can be created with keyword arguments of any names that are not reserved
(`owner` is allowed), and whenever it is evaluated its function is called with them, and with the
positional arguments, as C52 says. -/
theorem C107_names_partial (hwf : Dict.WF kw) (hr : ∀ k ∈ Dict.keys kw, k ∉ reserved) :
    ∃ o, create py cargs kw = .ok o ∧ o.owner = Dict.get? kw "owner" ∧
      ∀ sig eargs e ekw, o.evaluate py sig eargs e ekw = asWritten sig cargs kw eargs e ekw := by
  have no : ∀ k ∈ reserved, k ∉ Dict.keys kw := fun k hk h => hr k h hk
  have nn : ∀ k ∈ reserved, Dict.get? kw k = none := fun k hk => Dict.get?_eq_none.2 (no k hk)
  have hro : ∀ k ∈ Dict.keys kw, k ≠ "absolute_intervals" ∧ k ≠ "absolute_fixed_points" ∧
      k ≠ "is_absolute" := fun k hk =>
    ⟨fun e => no "absolute_intervals" (by decide) (e ▸ hk), fun e => no "absolute_fixed_points" (by decide) (e ▸ hk),
      fun e => no "is_absolute" (by decide) (e ▸ hk)⟩
  obtain ⟨o, k1, k2, k3, k4, k5⟩ := create_spec (py := py) (cargs := cargs) hwf (no _ (by decide))
    (no _ (by decide)) hro (.inl (no _ (by decide)))
  · rw [nn _ (by decide)] at k2 k3
    rw [filter_owner_none (no _ (by decide))] at k3
    refine ⟨o, k1, ?_, fun sig eargs e ekw => ?_⟩
    · rw [k4, nn "_owner" (by decide)]; rcases Dict.get? kw "owner" <;> rfl
    · unfold evaluate asWritten
      rw [k5 _ (by decide) (by decide) (by decide) (by decide), nn _ (by decide), k2, k3]
      dsimp only [Sum.elim]
      rcases conditionCall sig cargs kw eargs e ekw <;> rfl

/-! ## The reserved names -/

/-- `self`, `func` and the names of properties: the condition cannot be created. -/
theorem C107_rejected :
    ("self" ∈ Dict.keys kw ∨ "func" ∈ Dict.keys kw → create py cargs kw = .error .typeError) ∧
    (∀ k ∈ ["absolute_intervals", "absolute_fixed_points", "is_absolute"], k ∈ Dict.keys kw →
      ∀ o, create py cargs kw ≠ .ok o) := by
  refine ⟨fun h => by unfold create; rw [if_pos h], fun k hk hm o ho => ?_⟩
  have key : ∀ (l : Dict String V) (o o' : CondObj V), k ∈ Dict.keys l → setAttrs py l o ≠ .ok o' := by
    intro l
    induction l with
    | nil => intro _ _ h; simp at h
    | cons p l ih =>
      obtain ⟨x, v⟩ := p
      intro o o' h he
      have he : (match o.setAttr py x v with
        | .error e => Except.error e | .ok o' => setAttrs py l o') = .ok o' := he
      by_cases hx : x = k
      · subst hx
        have : o.setAttr py x v = .error .attributeError := by
          simp only [List.mem_cons, List.not_mem_nil, or_false] at hk
          rcases hk with rfl | rfl | rfl <;> rfl
        rw [this] at he
        cases he
      · rw [Dict.keys_cons, List.mem_cons] at h
        rcases e : o.setAttr py x v with err | o1
        · rw [e] at he; cases he
        · rw [e] at he
          exact ih o1 o' (h.resolve_left fun h => hx h.symm) he
  unfold create at ho
  split at ho
  · cases ho
  · refine key _ _ _ ?_ ho
    rw [keys_filter_owner, List.mem_filter]
    refine ⟨hm, ?_⟩
    simp only [List.mem_cons, List.not_mem_nil, or_false] at hk
    rcases hk with rfl | rfl | rfl <;> decide

/-- `_owner`: is not passed to the function, whatever the function accepts, but becomes the
owner. -/
theorem C107_swallowed (hwf : Dict.WF kw) {v : V} (hv : Dict.get? kw "_owner" = some v)
    (hr : ∀ k ∈ Dict.keys kw, k ≠ "_owner" → k ∉ reserved)
    (ho : "owner" ∉ Dict.keys kw) :
    ∃ o, create py cargs kw = .ok o ∧ o.owner = some v ∧
      ∀ sig eargs e ekw, o.evaluate py sig eargs e ekw =
        asWritten sig cargs (kw.filter fun p => decide (p.1 ≠ "_owner")) eargs e ekw := by
  have no : ∀ k ∈ reserved, k ≠ "_owner" → k ∉ Dict.keys kw := fun k hk h1 h => hr k h h1 hk
  have nn : ∀ k ∈ reserved, k ≠ "_owner" → Dict.get? kw k = none :=
    fun k hk h => Dict.get?_eq_none.2 (no k hk h)
  have hro : ∀ k ∈ Dict.keys kw, k ≠ "absolute_intervals" ∧ k ≠ "absolute_fixed_points" ∧
      k ≠ "is_absolute" := fun k hk =>
    ⟨fun e => no "absolute_intervals" (by decide) (by decide) (e ▸ hk), fun e => no "absolute_fixed_points" (by decide) (by decide) (e ▸ hk),
      fun e => no "is_absolute" (by decide) (by decide) (e ▸ hk)⟩
  obtain ⟨o, k1, k2, k3, k4, k5⟩ := create_spec (py := py) (cargs := cargs) hwf
    (no "self" (by decide) (by decide)) (no "func" (by decide) (by decide)) hro (.inr ho)
  · rw [nn _ (by decide) (by decide)] at k2 k3
    refine ⟨o, k1, ?_, fun sig eargs e ekw => ?_⟩
    · rw [k4, Dict.get?_eq_none.2 ho]; exact hv
    · unfold evaluate asWritten
      rw [k5 _ (by decide) (by decide) (by decide) (by decide), nn _ (by decide) (by decide), k2, k3]
      dsimp only [Sum.elim]
      rcases conditionCall sig cargs _ eargs e ekw <;> rfl

/-- `args`: its value, if it can be unpacked, replaces the positional arguments given to the
condition. -/
theorem C107_positional (hwf : Dict.WF kw) {v : V} {l : List V} (hv : Dict.get? kw "args" = some v)
    (hl : py.unpack v = some l) (hr : ∀ k ∈ Dict.keys kw, k ≠ "args" → k ∉ reserved) :
    ∃ o, create py cargs kw = .ok o ∧
      ∀ sig eargs e ekw, o.evaluate py sig eargs e ekw = asWritten sig l kw eargs e ekw := by
  have no : ∀ k ∈ reserved, k ≠ "args" → k ∉ Dict.keys kw := fun k hk h1 h => hr k h h1 hk
  have nn : ∀ k ∈ reserved, k ≠ "args" → Dict.get? kw k = none :=
    fun k hk h => Dict.get?_eq_none.2 (no k hk h)
  have hro : ∀ k ∈ Dict.keys kw, k ≠ "absolute_intervals" ∧ k ≠ "absolute_fixed_points" ∧
      k ≠ "is_absolute" := fun k hk =>
    ⟨fun e => no "absolute_intervals" (by decide) (by decide) (e ▸ hk), fun e => no "absolute_fixed_points" (by decide) (by decide) (e ▸ hk),
      fun e => no "is_absolute" (by decide) (by decide) (e ▸ hk)⟩
  obtain ⟨o, k1, k2, k3, k4, k5⟩ := create_spec (py := py) (cargs := cargs) hwf
    (no "self" (by decide) (by decide)) (no "func" (by decide) (by decide)) hro
    (.inl (no _ (by decide) (by decide)))
  · rw [hv] at k2
    rw [nn _ (by decide) (by decide), filter_owner_none (no _ (by decide) (by decide))] at k3
    refine ⟨o, k1, fun sig eargs e ekw => ?_⟩
    unfold evaluate asWritten
    rw [k5 _ (by decide) (by decide) (by decide) (by decide), nn _ (by decide) (by decide), k2, k3]
    dsimp only [Sum.elim]
    rw [hl]
    dsimp only
    rcases conditionCall sig l kw eargs e ekw <;> rfl

/-- `kwargs`: its value, if it is a dict, replaces all keyword arguments given to the condition,
itself included. -/
theorem C107_keywords (hwf : Dict.WF kw) {v : V} {d : Dict String V}
    (hv : Dict.get? kw "kwargs" = some v) (hd : py.asDict v = some d)
    (hr : ∀ k ∈ Dict.keys kw, k ≠ "kwargs" → k ∉ reserved) :
    ∃ o, create py cargs kw = .ok o ∧
      ∀ sig eargs e ekw, o.evaluate py sig eargs e ekw = asWritten sig cargs d eargs e ekw := by
  have no : ∀ k ∈ reserved, k ≠ "kwargs" → k ∉ Dict.keys kw := fun k hk h1 h => hr k h h1 hk
  have nn : ∀ k ∈ reserved, k ≠ "kwargs" → Dict.get? kw k = none :=
    fun k hk h => Dict.get?_eq_none.2 (no k hk h)
  have hro : ∀ k ∈ Dict.keys kw, k ≠ "absolute_intervals" ∧ k ≠ "absolute_fixed_points" ∧
      k ≠ "is_absolute" := fun k hk =>
    ⟨fun e => no "absolute_intervals" (by decide) (by decide) (e ▸ hk), fun e => no "absolute_fixed_points" (by decide) (by decide) (e ▸ hk),
      fun e => no "is_absolute" (by decide) (by decide) (e ▸ hk)⟩
  obtain ⟨o, k1, k2, k3, k4, k5⟩ := create_spec (py := py) (cargs := cargs) hwf
    (no "self" (by decide) (by decide)) (no "func" (by decide) (by decide)) hro
    (.inl (no _ (by decide) (by decide)))
  · rw [hv] at k3
    rw [nn _ (by decide) (by decide)] at k2
    refine ⟨o, k1, fun sig eargs e ekw => ?_⟩
    unfold evaluate asWritten
    rw [k5 _ (by decide) (by decide) (by decide) (by decide), nn _ (by decide) (by decide), k2, k3]
    dsimp only [Sum.elim]
    rw [hd]
    dsimp only
    rcases conditionCall sig cargs d eargs e ekw <;> rfl

/-- `is_satisfied`: the function of the condition is never called, its value is called
instead. -/
theorem C107_method (hwf : Dict.WF kw) {v : V} (hv : Dict.get? kw "is_satisfied" = some v)
    (hr : ∀ k ∈ Dict.keys kw, k ≠ "is_satisfied" → k ∉ reserved) :
    ∃ o, create py cargs kw = .ok o ∧
      ∀ sig eargs e ekw, o.evaluate py sig eargs e ekw = .ok (.replaced v) := by
  have no : ∀ k ∈ reserved, k ≠ "is_satisfied" → k ∉ Dict.keys kw := fun k hk h1 h => hr k h h1 hk
  have hro : ∀ k ∈ Dict.keys kw, k ≠ "absolute_intervals" ∧ k ≠ "absolute_fixed_points" ∧
      k ≠ "is_absolute" := fun k hk =>
    ⟨fun e => no "absolute_intervals" (by decide) (by decide) (e ▸ hk), fun e => no "absolute_fixed_points" (by decide) (by decide) (e ▸ hk),
      fun e => no "is_absolute" (by decide) (by decide) (e ▸ hk)⟩
  obtain ⟨o, k1, k2, k3, k4, k5⟩ := create_spec (py := py) (cargs := cargs) hwf
    (no "self" (by decide) (by decide)) (no "func" (by decide) (by decide)) hro
    (.inl (no _ (by decide) (by decide)))
  · refine ⟨o, k1, fun sig eargs e ekw => ?_⟩
    unfold evaluate
    rw [k5 _ (by decide) (by decide) (by decide) (by decide), hv]

/-- `_validate_owner`: reaches the function, but is also called when the condition is given an
owner, as by `add_condition`: if this call fails, the owner cannot be set. -/
theorem C107_validator (hwf : Dict.WF kw) {v : V} (hv : Dict.get? kw "_validate_owner" = some v)
    (hr : ∀ k ∈ Dict.keys kw, k ≠ "_validate_owner" → k ∉ reserved) (ho : "owner" ∉ Dict.keys kw) :
    ∃ o, create py cargs kw = .ok o ∧
      (∀ sig eargs e ekw, o.evaluate py sig eargs e ekw = asWritten sig cargs kw eargs e ekw) ∧
      ∀ n err, py.call v n = .error err → o.setOwner py n = .error err := by
  have no : ∀ k ∈ reserved, k ≠ "_validate_owner" → k ∉ Dict.keys kw := fun k hk h1 h => hr k h h1 hk
  have nn : ∀ k ∈ reserved, k ≠ "_validate_owner" → Dict.get? kw k = none :=
    fun k hk h => Dict.get?_eq_none.2 (no k hk h)
  have hro : ∀ k ∈ Dict.keys kw, k ≠ "absolute_intervals" ∧ k ≠ "absolute_fixed_points" ∧
      k ≠ "is_absolute" := fun k hk =>
    ⟨fun e => no "absolute_intervals" (by decide) (by decide) (e ▸ hk), fun e => no "absolute_fixed_points" (by decide) (by decide) (e ▸ hk),
      fun e => no "is_absolute" (by decide) (by decide) (e ▸ hk)⟩
  obtain ⟨o, k1, k2, k3, k4, k5⟩ := create_spec (py := py) (cargs := cargs) hwf
    (no "self" (by decide) (by decide)) (no "func" (by decide) (by decide)) hro (.inr ho)
  · rw [nn _ (by decide) (by decide)] at k2 k3
    rw [filter_owner_none (no _ (by decide) (by decide))] at k3
    refine ⟨o, k1, fun sig eargs e ekw => ?_, fun n err h => ?_⟩
    · unfold evaluate asWritten
      rw [k5 _ (by decide) (by decide) (by decide) (by decide), nn _ (by decide) (by decide), k2, k3]
      dsimp only [Sum.elim]
      rcases conditionCall sig cargs kw eargs e ekw <;> rfl
    · unfold setOwner
      rw [k5 _ (by decide) (by decide) (by decide) (by decide), hv]
      dsimp only
      rw [h]

/-! ## Cases -/

/-- Numbers below 100 are plain objects; 100 is the tuple `(1, 2)` and 101 the dict `{'y': 5}`;
nothing can be called. -/
def somePy : PyVals Nat where
  unpack v := if v = 100 then some [1, 2] else none
  asDict v := if v = 101 then some [("y", 5)] else none
  call _ _ := .error .typeError

/-- `def f(a, *, y=0, args=None, _owner=None)`. -/
def fSig : Sig := [⟨"a", .positionalOrKeyword, false⟩, ⟨"y", .keywordOnly, true⟩,
  ⟨"args", .keywordOnly, true⟩, ⟨"_owner", .keywordOnly, true⟩]

/-- What `f` is called with. -/
def fCall (kw : Dict String Nat) : Option (List Nat × List (String × Nat)) :=
  match create somePy [7] kw with
  | .ok o => match o.evaluate somePy fSig [] 0 [] with
    | .ok (.calls c) => some (c.args, c.kwargs)
    | _ => none
  | .error _ => none

/-- `Condition(f, 7, y=3)` and `Condition(f, 7, owner=3)` call `f` as written; `args=(1, 2)`,
`kwargs={'y': 5}`, `_owner=3` and `is_satisfied=3` do not, although `f` accepts three of them, and
`is_absolute=3` cannot even be created. -/
example : fCall [("y", 3)] = some ([7], [("y", 3)]) ∧
    fCall [("owner", 3), ("y", 3)] = some ([7], [("y", 3)]) ∧
    fCall [("args", 100)] = some ([1], [("args", 100)]) ∧
    fCall [("y", 3), ("kwargs", 101)] = some ([7], [("y", 5)]) ∧
    fCall [("y", 3), ("_owner", 4)] = some ([7], [("y", 3)]) ∧
    fCall [("is_satisfied", 3)] = none ∧ fCall [("is_absolute", 3)] = none := by
  refine ⟨?_, ?_, ?_, ?_, ?_, ?_, ?_⟩ <;> decide +kernel

/-- The hypotheses of `C107_names_partial` and of `C107_positional` are met. -/
example : Dict.WF [("y", 3), ("owner", 4)] ∧ (∀ k ∈ Dict.keys [("y", 3), ("owner", 4)], k ∉ reserved) ∧
    Dict.get? [("y", 3), ("args", 100)] "args" = some 100 ∧ somePy.unpack 100 = some [1, 2] ∧
    ∀ k ∈ Dict.keys [("y", 3), ("args", 100)], k ≠ "args" → k ∉ reserved := by
  refine ⟨?_, ?_, ?_, ?_, ?_⟩
  · unfold Dict.WF; decide
  all_goals decide

end GS.Props

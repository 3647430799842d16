import Verif.AliasLemmas

/-!
# Lemmas about setting and removing aliases
-/

set_option linter.unusedSectionVars false

namespace GS
namespace Dict
variable {κ : Type _} {β : Type _} [DecidableEq κ]

theorem set_new {d : Dict κ β} {k : κ} (h : k ∉ keys d) (v : β) : set d k v = d ++ [(k, v)] := by
  induction d with
  | nil => rfl
  | cons p d ih =>
    obtain ⟨a, b⟩ := p
    simp only [keys_cons, List.mem_cons, not_or] at h
    simp only [set, if_neg (Ne.symm h.1), List.cons_append, ih h.2]

theorem keys_append (d e : Dict κ β) : keys (d ++ e) = keys d ++ keys e := by simp [keys]

theorem update_new {d e : Dict κ β} (wf : WF e) (h : ∀ k ∈ keys e, k ∉ keys d) :
    update d e = d ++ e := by
  induction e generalizing d with
  | nil => simp [update]
  | cons p e ih =>
    obtain ⟨a, b⟩ := p
    simp only [WF, keys_cons, List.nodup_cons] at wf
    have h1 := h a (by simp)
    have : update d ((a, b) :: e) = update (set d a b) e := rfl
    rw [this, set_new h1, ih wf.2]
    · simp
    · intro k hk
      have := h k (by simp [hk])
      rw [keys_append]
      simp only [keys_cons, keys_nil, List.mem_append, List.mem_singleton, not_or]
      exact ⟨this, fun e => wf.1 (e ▸ hk)⟩

theorem erase_append {d e : Dict κ β} {k : κ} (h : k ∉ keys d) :
    erase (d ++ e) k = d ++ erase e k := by
  induction d with
  | nil => rfl
  | cons p d ih =>
    obtain ⟨a, b⟩ := p
    simp only [keys_cons, List.mem_cons, not_or] at h
    simp only [List.cons_append, erase, if_neg (Ne.symm h.1), ih h.2]

theorem get?_append_new {d e : Dict κ β} {k : κ} (h : k ∉ keys d) :
    get? (d ++ e) k = get? e k := by
  rw [get?_append, get?_eq_none.2 h]; rfl

end Dict

namespace Names

/-- The names that setting an alias adds, with what they refer to. -/
def added (old new : Str) (ps : List (Str × Val)) : Dict Str Val :=
  (ps.filter fun p => Str.occurs old p.1).map fun p => (Str.replace old new p.1, p.2)

theorem foldl_addName (old new : Str) (ps : List (Str × Val)) (s : Names) :
    ps.foldl (addName old new) s = { s with
      cond := Dict.update s.cond (added old new ps)
      pkg := Dict.update s.pkg (added old new ps)
      condAll := s.condAll ++ Dict.keys (added old new ps)
      pkgAll := s.pkgAll ++ Dict.keys (added old new ps) } := by
  induction ps generalizing s with
  | nil => simp [added, Dict.update, Dict.keys]
  | cons p ps ih =>
    rw [List.foldl_cons, ih]
    by_cases h : Str.occurs old p.1 = true
    · simp [addName, added, h, Dict.update, Dict.keys]
    · simp [addName, added, h]

theorem mem_keys_added {old new : Str} {ps : List (Str × Val)} {z : Str} :
    z ∈ Dict.keys (added old new ps) ↔
      ∃ x ∈ Dict.keys ps, old <:+: x ∧ z = Str.replace old new x := by
  simp only [added, Dict.keys, List.map_map, List.mem_map, List.mem_filter, Str.occurs_iff]
  constructor
  · rintro ⟨p, ⟨hp, ho⟩, rfl⟩; exact ⟨p.1, ⟨p, hp, rfl⟩, ho, rfl⟩
  · rintro ⟨x, ⟨p, hp, rfl⟩, ho, rfl⟩; exact ⟨p, ⟨hp, ho⟩, rfl⟩

theorem wf_added {old new : Str} {ps : Dict Str Val} (wf : Dict.WF ps)
    (hd : ∀ x ∈ Dict.keys ps, ∀ y ∈ Dict.keys ps, old <:+: x → old <:+: y →
      Str.replace old new x = Str.replace old new y → x = y) :
    Dict.WF (added old new ps) := by
  induction ps with
  | nil => simp [added, Dict.WF]
  | cons p ps ih =>
    obtain ⟨a, b⟩ := p
    simp only [Dict.WF, Dict.keys_cons, List.nodup_cons] at wf
    have ih := ih wf.2 fun x hx y hy => hd x (by simp [hx]) y (by simp [hy])
    by_cases h : Str.occurs old a = true
    · have e : added old new ((a, b) :: ps) = (Str.replace old new a, b) :: added old new ps := by
        simp [added, h]
      rw [e, Dict.WF, Dict.keys_cons, List.nodup_cons]
      refine ⟨fun hm => ?_, ih⟩
      obtain ⟨x, hx, ho, hz⟩ := mem_keys_added.1 hm
      have := hd a (by simp) x (by simp [hx]) ((Str.occurs_iff _ _).1 h) ho hz
      exact wf.1 (this ▸ hx)
    · have e : added old new ((a, b) :: ps) = added old new ps := by simp [added, h]
      rw [e]; exact ih

theorem get?_added {old new : Str} {ps : Dict Str Val} (wf : Dict.WF ps)
    (hd : ∀ x ∈ Dict.keys ps, ∀ y ∈ Dict.keys ps, old <:+: x → old <:+: y →
      Str.replace old new x = Str.replace old new y → x = y) {x : Str}
    (hx : x ∈ Dict.keys ps) (ho : old <:+: x) :
    Dict.get? (added old new ps) (Str.replace old new x) = Dict.get? ps x := by
  induction ps with
  | nil => simp at hx
  | cons p ps ih =>
    obtain ⟨a, b⟩ := p
    simp only [Dict.WF, Dict.keys_cons, List.nodup_cons] at wf
    by_cases h : Str.occurs old a = true
    · have e : added old new ((a, b) :: ps) = (Str.replace old new a, b) :: added old new ps := by
        simp [added, h]
      rw [e, Dict.get?_cons, Dict.get?_cons]
      by_cases ha : a = x
      · subst ha; simp
      · have hx' : x ∈ Dict.keys ps := by
          simp only [Dict.keys_cons, List.mem_cons] at hx
          exact hx.resolve_left (Ne.symm ha)
        have hr : Str.replace old new a ≠ Str.replace old new x := fun h2 =>
          ha (hd a (by simp) x (by simp [hx']) ((Str.occurs_iff _ _).1 h) ho h2)
        rw [if_neg hr, if_neg ha]
        exact ih wf.2 (fun x hx y hy => hd x (by simp [hx]) y (by simp [hy])) hx'
    · have e : added old new ((a, b) :: ps) = added old new ps := by simp [added, h]
      have ha : a ≠ x := fun e => h ((Str.occurs_iff _ _).2 (e ▸ ho))
      have hx' : x ∈ Dict.keys ps := by
        simp only [Dict.keys_cons, List.mem_cons] at hx
        exact hx.resolve_left (Ne.symm ha)
      rw [e, Dict.get?_cons, if_neg ha]
      exact ih wf.2 (fun x hx y hy => hd x (by simp [hx]) y (by simp [hy])) hx'

/-- Two sets of names, one after the other. -/
def app (s r : Names) : Names where
  aliases := s.aliases ++ r.aliases
  scale := s.scale ++ r.scale
  time := s.time ++ r.time
  simple := s.simple ++ r.simple
  cond := s.cond ++ r.cond
  pkg := s.pkg ++ r.pkg
  condAll := s.condAll ++ r.condAll
  pkgAll := s.pkgAll ++ r.pkgAll

/-- No names. -/
def none : Names := ⟨[], [], [], [], [], [], [], []⟩

theorem app_none (s : Names) : s.app none = s := by simp [app, none]

theorem app_assoc (s r q : Names) : (s.app r).app q = s.app (r.app q) := by simp [app]

/-- Just the names of condition classes in `e`. -/
def classes (e : Dict Str Val) : Names :=
  ⟨[], [], [], [], e, e, Dict.keys e, Dict.keys e⟩

/-- The names of an alias, with those of condition classes in `e`. -/
def ofAlias (name : Str) (ts : TimeScale) (e : Dict Str Val) : Names :=
  ⟨[(ts, name)], [(name, .scale ts)], [(Str.lower name, .prop ts)],
    [(Str.lower name, .prop ts)], e, e, Dict.keys e, Dict.keys e⟩

/-- Removing the names that were added. -/
theorem dropNames_added (new : Str) (e : Dict Str Val) (s r : Names)
    (wf : Dict.WF e) (he : ∀ k ∈ Dict.keys e, new <:+: k)
    (hc : ∀ k ∈ Dict.keys e, k ∉ Dict.keys s.cond) (hp : ∀ k ∈ Dict.keys e, k ∉ Dict.keys s.pkg)
    (hca : ∀ k ∈ Dict.keys e, k ∉ s.condAll) (hpa : ∀ k ∈ Dict.keys e, k ∉ s.pkgAll) :
    dropNames new e (s.app ((classes e).app r)) = (s.app r, .ok ()) := by
  induction e with
  | nil => simp [dropNames, app, classes]
  | cons p e ih =>
    obtain ⟨a, b⟩ := p
    simp only [Dict.WF, Dict.keys_cons, List.nodup_cons] at wf
    have ho : Str.occurs new a = true := (Str.occurs_iff _ _).2 (he a (by simp))
    have c1 := hc a (by simp)
    have c2 := hp a (by simp)
    have c3 := hca a (by simp)
    have c4 := hpa a (by simp)
    have key : dropName (s.app ((classes ((a, b) :: e)).app r)) a
        = (s.app ((classes e).app r), .ok ()) := by
      simp only [dropName, delattr, removeFirst, app, classes, List.nil_append, List.cons_append,
        Dict.keys_cons, Dict.get?_append_new c1, Dict.get?_append_new c2,
        Dict.get?_cons, if_true, Option.isSome_some, Dict.erase_append c1, Dict.erase_append c2,
        Dict.erase, List.mem_append, List.mem_cons, true_or, or_true,
        List.erase_append_right _ c3, List.erase_append_right _ c4, List.erase_cons_head]
    simp only [dropNames, ho, if_true, key]
    exact ih wf.2 (fun k hk => he k (by simp [hk])) (fun k hk => hc k (by simp [hk]))
      (fun k hk => hp k (by simp [hk])) (fun k hk => hca k (by simp [hk]))
      (fun k hk => hpa k (by simp [hk]))

theorem dropNames_append (new : Str) (ps qs : List (Str × Val)) (s : Names)
    (h : ∀ k ∈ Dict.keys ps, ¬ new <:+: k) : dropNames new (ps ++ qs) s = dropNames new qs s := by
  induction ps with
  | nil => rfl
  | cons p ps ih =>
    obtain ⟨a, b⟩ := p
    have : ¬ Str.occurs new a = true := fun h2 => h a (by simp) ((Str.occurs_iff _ _).1 h2)
    simp only [List.cons_append, dropNames, if_neg this]
    exact ih fun k hk => h k (by simp [hk])

theorem dropNames_append' (new : Str) (ps qs : List (Str × Val)) (s s' : Names)
    (hps : dropNames new ps s = (s', .ok ())) :
    dropNames new (ps ++ qs) s = dropNames new qs s' := by
  induction ps generalizing s with
  | nil =>
    simp only [dropNames, Prod.mk.injEq, and_true] at hps
    rw [hps, List.nil_append]
  | cons p ps ih =>
    simp only [List.cons_append, dropNames] at hps ⊢
    split
    · rename_i ho
      rw [if_pos ho] at hps
      match hd : s.dropName p.1 with
      | (s'', .error e) => rw [hd] at hps; simp at hps
      | (s'', .ok ()) => rw [hd] at hps; simp only; exact ih _ hps
    · rename_i ho
      rw [if_neg ho] at hps
      exact ih _ hps

theorem dropNames_none (new : Str) (ps : List (Str × Val)) (s : Names)
    (h : ∀ k ∈ Dict.keys ps, ¬ new <:+: k) : dropNames new ps s = (s, .ok ()) := by
  have := dropNames_append new ps [] s h
  simpa [dropNames] using this

theorem aliased_free {s : Names} {name : Str} (h : Spec.Free s name) : s.aliased name = [] := by
  simp only [aliased, List.map_eq_nil_iff, List.filter_eq_nil_iff]
  intro p hp
  simpa using h.unused p hp

theorem member_free {s : Names} {name : Str} (h : Spec.Free s name) :
    (TimeScale.all.any fun t => decide (t.name = name)) = false := by
  simp only [List.any_eq_false, decide_eq_true_eq]
  exact fun t _ => h.member t

/-- What setting an alias does if the name is free. -/
theorem setAlias_free {s : Names} {name seg : Str} (h : Spec.Free s name)
    (hs : Spec.ClassName name seg) (ts : TimeScale) :
    s.setAlias name (.inl ts) = ({
      aliases := Dict.set s.aliases ts name
      scale := Dict.set s.scale name (.scale ts)
      time := Dict.set s.time (Str.lower name) (.prop ts)
      simple := Dict.set s.simple (Str.lower name) (.prop ts)
      cond := Dict.update s.cond (added ts.className seg s.pkg)
      pkg := Dict.update s.pkg (added ts.className seg s.pkg)
      condAll := s.condAll ++ Dict.keys (added ts.className seg s.pkg)
      pkgAll := s.pkgAll ++ Dict.keys (added ts.className seg s.pkg) }, .ok ()) := by
  simp only [setAlias, aliased_free h, ne_eq, not_true_eq_false, if_false, target,
    member_free h, hs.eq.1, foldl_addName]
  rfl

/-- Removing an alias, if nothing else has its name. -/
theorem removeAlias_free {s r : Names} {name seg : Str} (h : Spec.Free s name)
    (hs : Spec.ClassName name seg) (hu : Spec.Unmentioned s name seg) {ts : TimeScale}
    (ht : ts ∉ Dict.keys s.aliases) {e : Dict Str Val} (wf : Dict.WF e)
    (he : ∀ k ∈ Dict.keys e, seg <:+: k) (hr : ∀ p ∈ r.aliases, p.2 ≠ name)
    (hrp : ∀ k ∈ Dict.keys r.pkg, ¬ seg <:+: k) :
    removeAlias (s.app ((ofAlias name ts e).app r)) name = (s.app r, .ok ()) := by
  have ha : aliased (s.app ((ofAlias name ts e).app r)) name = [ts] := by
    have h1 := aliased_free h
    simp only [aliased, List.map_eq_nil_iff] at h1
    have h2 : r.aliases.filter (fun p => decide (p.2 = name)) = [] := by
      rw [List.filter_eq_nil_iff]
      intro p hp
      simpa using hr p hp
    simp [aliased, app, ofAlias, List.filter_append, h1, h2]
  unfold removeAlias
  rw [ha]
  simp only [member_free h, delattr, app, ofAlias, List.cons_append, List.nil_append,
    Dict.get?_append_new hu.scale, Dict.get?_append_new hu.time,
    Dict.get?_append_new hu.simple, Dict.get?_cons, if_true, Option.isSome_some,
    Dict.erase_append ht, Dict.erase_append hu.scale, Dict.erase_append hu.time,
    Dict.erase_append hu.simple, Dict.erase, hs.eq.1]
  have key := dropNames_added seg e ⟨s.aliases ++ r.aliases, s.scale ++ r.scale,
      s.time ++ r.time, s.simple ++ r.simple, s.cond, s.pkg, s.condAll, s.pkgAll⟩
    ⟨[], [], [], [], r.cond, r.pkg, r.condAll, r.pkgAll⟩ wf he
    (fun k hk hc => hu.cond k hc (he k hk))
    (fun k hk hc => hu.pkg k hc (he k hk)) (fun k hk hc => hu.condAll k hc (he k hk))
    (fun k hk hc => hu.pkgAll k hc (he k hk))
  simp only [app, classes, List.nil_append, List.append_nil] at key
  rw [dropNames_append _ _ _ _ hu.pkg, dropNames_append' _ _ _ _ _ key,
    dropNames_none _ _ _ hrp]
  rfl

/-- Setting an alias whose names are all new adds them at the end. -/
theorem setAlias_new {s : Names} {name seg : Str} (h : Spec.Free s name)
    (hs : Spec.ClassName name seg) (hu : Spec.Unmentioned s name seg) {ts : TimeScale}
    (ht : ts ∉ Dict.keys s.aliases) (wf : Dict.WF (added ts.className seg s.pkg)) :
    s.setAlias name (.inl ts)
      = (s.app (ofAlias name ts (added ts.className seg s.pkg)), .ok ()) := by
  have hm : ∀ k ∈ Dict.keys (added ts.className seg s.pkg), seg <:+: k := by
    intro k hk
    obtain ⟨x, _, ho, rfl⟩ := mem_keys_added.1 hk
    exact Str.infix_replace ts.className_ne seg ho
  rw [setAlias_free h hs ts, Dict.set_new ht, Dict.set_new hu.scale, Dict.set_new hu.time,
    Dict.set_new hu.simple, Dict.update_new wf fun k hk hc => hu.cond k hc (hm k hk),
    Dict.update_new wf fun k hk hc => hu.pkg k hc (hm k hk)]
  rfl

theorem added_append (old new : Str) (ps qs : List (Str × Val)) :
    added old new (ps ++ qs) = added old new ps ++ added old new qs := by
  simp [added]

theorem added_none {old new : Str} {ps : List (Str × Val)}
    (h : ∀ k ∈ Dict.keys ps, ¬ old <:+: k) : added old new ps = [] := by
  simp only [added, List.map_eq_nil_iff, List.filter_eq_nil_iff, Str.occurs_iff]
  exact fun p hp => h p.1 (List.mem_map_of_mem hp)

theorem _root_.GS.Spec.NoClash.inj {s : Names} {old new : Str} (h0 : old ≠ []) (h : Spec.NoClash s old new) :
    ∀ x ∈ Dict.keys s.pkg, ∀ y ∈ Dict.keys s.pkg, old <:+: x → old <:+: y →
      Str.replace old new x = Str.replace old new y → x = y :=
  fun x hx y hy ox oy e => h x hx y hy ox oy _ (Str.replaces h0 new x)
    (e ▸ Str.replaces h0 new y)

end Names
end GS

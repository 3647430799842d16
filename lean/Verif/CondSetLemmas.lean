import Verif.Spec.CondSet
/-! # `ConditionSet` refines a list of entries -/

set_option linter.unusedSectionVars false

namespace GS
open Spec
variable {α κ W : Type _} [DecidableEq α] [DecidableEq κ]

theorem basicsOf_append (n : α) (es fs : Entries α κ W) :
    basicsOf n (es ++ fs) = basicsOf n es ++ basicsOf n fs := by
  induction es with
  | nil => rfl
  | cons e es ih =>
    obtain ⟨m, c | c⟩ := e
    · simp only [List.cons_append, basicsOf]; split <;> simp [ih]
    · simp only [List.cons_append, basicsOf, ih]

theorem structsOf_append (n : α) (es fs : Entries α κ W) :
    structsOf n (es ++ fs) = structsOf n es ++ structsOf n fs := by
  induction es with
  | nil => rfl
  | cons e es ih =>
    obtain ⟨m, c | c⟩ := e
    · simp only [List.cons_append, structsOf, ih]
    · simp only [List.cons_append, structsOf]; split <;> simp [ih]

theorem allStructs_append (es fs : Entries α κ W) :
    allStructs (es ++ fs) = allStructs es ++ allStructs fs := by
  induction es with
  | nil => rfl
  | cons e es ih =>
    obtain ⟨m, c | c⟩ := e <;> simp [allStructs, ih]

namespace CSet

/-- One node of the rebuilt view. -/
theorem get?_showStructural (v : Dict α (Shown α κ W)) (node n : α) (l : List (SCond α)) :
    Dict.get? (showStructural v node l) n =
      if node = n then Dict.get? (showStructural v node l) node else Dict.get? v n := by
  by_cases h : node = n
  · subst h; simp
  · rw [if_neg h]
    unfold showStructural
    split <;> rw [Dict.get?_set, if_neg h]

theorem showStructural_keys (v : Dict α (Shown α κ W)) (node : α) (l : List (SCond α)) :
    ∃ x, showStructural v node l = Dict.set v node x := by
  unfold showStructural; split <;> exact ⟨_, rfl⟩

theorem fold_show_wf (d : Dict α (List (SCond α))) (v : Dict α (Shown α κ W)) (hv : Dict.WF v) :
    Dict.WF (d.foldl (fun v p => showStructural v p.1 p.2) v) := by
  induction d generalizing v with
  | nil => exact hv
  | cons p d ih =>
    refine ih (showStructural v p.1 p.2) ?_
    obtain ⟨x, hx⟩ := showStructural_keys v p.1 p.2
    rw [hx]; exact hv.set _ _

theorem get?_map_basic (d : Dict α (Cond α κ W)) (n : α) :
    Dict.get? (d.map fun p => (p.1, (Shown.one (.basic p.2) : Shown α κ W))) n =
      (Dict.get? d n).map fun c => .one (.basic c) := by
  induction d with
  | nil => rfl
  | cons p d ih =>
    obtain ⟨k, c⟩ := p
    simp only [List.map_cons, Dict.get?_cons, ih]
    split <;> rfl

theorem map_basic_wf (d : Dict α (Cond α κ W)) (h : Dict.WF d) :
    Dict.WF (d.map fun p => (p.1, (Shown.one (.basic p.2) : Shown α κ W))) := by
  have : Dict.keys (d.map fun p => (p.1, (Shown.one (.basic p.2) : Shown α κ W))) =
      Dict.keys d := by simp [Dict.keys, List.map_map, Function.comp_def]
  unfold Dict.WF; rw [this]; exact h

theorem fold_show_get (d : Dict α (List (SCond α))) (hd : Dict.WF d)
    (v : Dict α (Shown α κ W)) (n : α) :
    Dict.get? (d.foldl (fun v p => showStructural v p.1 p.2) v) n =
      match Dict.get? d n with
      | none => Dict.get? v n
      | some l => Dict.get? (showStructural v n l) n := by
  induction d generalizing v with
  | nil => rfl
  | cons p d ih =>
    obtain ⟨k, l⟩ := p
    simp only [Dict.WF, Dict.keys_cons, List.nodup_cons] at hd
    simp only [List.foldl_cons, ih hd.2, Dict.get?_cons]
    by_cases h : k = n
    · subst h
      rw [if_pos rfl, Dict.get?_eq_none.mpr hd.1]
    · rw [if_neg h]
      have hk : ∀ m, m ≠ k → Dict.get? (showStructural v k l) m = Dict.get? v m := by
        intro m hm; rw [get?_showStructural, if_neg (fun e => hm e.symm)]
      cases hg : Dict.get? d n with
      | none => exact hk n (fun e => h e.symm)
      | some l' =>
        have hh := hk n (fun e => h e.symm)
        generalize showStructural v k l = w at hh
        simp only [showStructural, hh]
        rcases Dict.get? v n with _ | (b | b)
        · match l' with
          | [] => simp only [Dict.get?_set, if_true]
          | [c] => simp only [Dict.get?_set, if_true]
          | c :: d :: cs => simp only [Dict.get?_set, if_true]
        · simp only [Dict.get?_set, if_true]
        · match l' with
          | [] => simp only [Dict.get?_set, if_true]
          | [c] => simp only [Dict.get?_set, if_true]
          | c :: d :: cs => simp only [Dict.get?_set, if_true]

theorem rebuild_view (s : CSet α κ W) (hr : s.rebuild = true) (hb : Dict.WF s.basic)
    (hs : Dict.WF s.structural) (es : Entries α κ W)
    (h1 : ∀ n, Dict.get? s.basic n = (basicsOf n es).getLast?)
    (h2 : ∀ n, Dict.get? s.structural n =
      if structsOf n es = [] then none else some (structsOf n es)) :
    (∀ n, s.getItem n = shown (basicsOf n es).getLast? (structsOf n es)) ∧
      Dict.WF s.conditions.view := by
  constructor
  · intro n
    unfold getItem conditions
    rw [if_pos hr]
    simp only
    rw [fold_show_get _ hs, h2 n]
    by_cases he : structsOf n es = []
    · rw [if_pos he, he]
      simp only
      rw [get?_map_basic, h1 n]
      cases (basicsOf n es).getLast? <;> rfl
    · rw [if_neg he]
      simp only [showStructural]
      rw [get?_map_basic, h1 n]
      cases (basicsOf n es).getLast? with
      | some b =>
        simp only [Option.map_some, Dict.get?_set, if_true]
        cases hl : structsOf n es with
        | nil => exact absurd hl he
        | cons c cs => rfl
      | none =>
        simp only [Option.map_none]
        match hl : structsOf n es with
        | [] => exact absurd hl he
        | [c] => simp [Dict.get?_set, shown]
        | c :: d :: cs => simp [Dict.get?_set, shown]
  · unfold conditions
    rw [if_pos hr]
    exact fold_show_wf _ _ (map_basic_wf _ hb)

end CSet

theorem Spec.Holds.mk' {s : CSet α κ W} {es : Entries α κ W} (hr : s.rebuild = true)
    (hb : Dict.WF s.basic) (hs : Dict.WF s.structural)
    (h1 : ∀ n, Dict.get? s.basic n = (basicsOf n es).getLast?)
    (h2 : ∀ n, Dict.get? s.structural n =
      if structsOf n es = [] then none else some (structsOf n es))
    (h3 : s.order = allStructs es) : Holds s es :=
  have h := CSet.rebuild_view s hr hb hs es h1 h2
  ⟨h1, h2, h3, h.1, hb, hs, h.2⟩

theorem holds_empty (st : Store α κ) (ow : OId → Option α) :
    Holds (CSet.empty st ow : CSet α κ W) [] := by
  refine ⟨fun _ => rfl, fun _ => rfl, rfl, fun _ => rfl, ?_, ?_, ?_⟩ <;>
    simp [CSet.empty, CSet.conditions, Dict.WF]

theorem Spec.Holds.add {s s' : CSet α κ W} {es : Entries α κ W} (h : Holds s es) {n : α}
    {c : AnyCond α κ W} (ha : s.add n c = (s', none)) : Holds s' (es ++ [(n, c)]) := by
  cases c with
  | basic c =>
    simp only [CSet.add, CSet.addBasic, Prod.mk.injEq, and_true] at ha
    subst ha
    refine Holds.mk' rfl (h.basicWF.set _ _) h.structuralWF ?_ ?_ ?_
    · intro m
      simp only [Dict.get?_set, basicsOf_append, basicsOf]
      by_cases hm : n = m
      · simp [hm]
      · simp [hm, h.basic m]
    · intro m; simpa [structsOf_append, structsOf] using h.structural m
    · simpa [allStructs_append, allStructs] using h.order
  | structural c =>
    simp only [CSet.add, CSet.addStructural] at ha
    split at ha
    · simp at ha
    · simp only [Prod.mk.injEq, and_true] at ha
      subst ha
      refine Holds.mk' rfl h.basicWF (h.structuralWF.set _ _) ?_ ?_ ?_
      · intro m; simpa [basicsOf_append, basicsOf] using h.basic m
      · intro m
        simp only [Dict.get?_set, structsOf_append, structsOf]
        by_cases hm : n = m
        · subst hm
          rw [CSet.structsFor, h.structural n]
          by_cases he : structsOf n es = [] <;> simp [he]
        · simp [hm, h.structural m]
      · simp [allStructs_append, allStructs, h.order]

theorem Spec.Holds.conditions {s : CSet α κ W} {es : Entries α κ W} (h : Holds s es) :
    Holds s.conditions es := by
  have e : s.conditions.conditions = s.conditions := by
    unfold CSet.conditions; split <;> simp_all
  refine ⟨?_, ?_, ?_, ?_, ?_, ?_, by rw [e]; exact h.viewWF⟩
  · intro n; rw [← h.basic n]; unfold CSet.conditions; split <;> rfl
  · intro n; rw [← h.structural n]; unfold CSet.conditions; split <;> rfl
  · rw [← h.order]; unfold CSet.conditions; split <;> rfl
  · intro n; rw [← h.view n]; unfold CSet.getItem; rw [e]
  · have := h.basicWF; unfold CSet.conditions; split <;> exact this
  · have := h.structuralWF; unfold CSet.conditions; split <;> exact this

/-- A failing addition changes nothing. -/
theorem CSet.add_error {s s' : CSet α κ W} {n : α} {c : AnyCond α κ W} {e : Err}
    (ha : s.add n c = (s', some e)) : s' = s := by
  cases c with
  | basic c => simp [CSet.add] at ha
  | structural c =>
    simp only [CSet.add, CSet.addStructural] at ha
    split at ha <;> simp at ha
    exact ha.1.symm

/-- `addAll` adds all, or stops at the first failing one. -/
theorem Spec.Holds.addAll {es : Entries α κ W} (n : α) (cs : List (AnyCond α κ W)) :
    ∀ {s : CSet α κ W} {es : Entries α κ W}, Holds s es → ∀ {s' r}, s.addAll n cs = (s', r) →
      ∃ done rest, cs = done ++ rest ∧ Holds s' (es ++ done.map (fun c => (n, c))) ∧
        (r = none → rest = []) := by
  induction cs with
  | nil =>
    intro s es h s' r ha
    simp only [CSet.addAll, Prod.mk.injEq] at ha
    exact ⟨[], [], rfl, by simpa [← ha.1] using h, fun _ => rfl⟩
  | cons c cs ih =>
    intro s es h s' r ha
    unfold CSet.addAll at ha
    split at ha
    · next s1 e he =>
      simp only [Prod.mk.injEq] at ha
      obtain ⟨rfl, rfl⟩ := ha
      refine ⟨[], c :: cs, rfl, ?_, by simp⟩
      rw [CSet.add_error he]; simpa using h
    · next s1 he =>
      obtain ⟨done, rest, e, hh, hr⟩ := ih (h.add he) ha
      exact ⟨c :: done, rest, by simp [e], by simpa using hh, hr⟩

theorem Spec.Holds.addSet (d : Dict α (List (AnyCond α κ W))) :
    ∀ {s : CSet α κ W} {es : Entries α κ W}, Holds s es → ∀ {s' r}, s.addSet d = (s', r) →
      ∃ done rest, listed d = done ++ rest ∧ Holds s' (es ++ done) ∧ (r = none → rest = []) := by
  induction d with
  | nil =>
    intro s es h s' r ha
    simp only [CSet.addSet, Prod.mk.injEq] at ha
    exact ⟨[], [], rfl, by simpa [← ha.1] using h, fun _ => rfl⟩
  | cons p d ih =>
    obtain ⟨n, cs⟩ := p
    intro s es h s' r ha
    unfold CSet.addSet at ha
    split at ha
    · next s1 e he =>
      simp only [Prod.mk.injEq] at ha
      obtain ⟨rfl, rfl⟩ := ha
      obtain ⟨done, rest, e1, hh, hr⟩ := Spec.Holds.addAll (es := es) n cs h he
      exact ⟨done.map (fun c => (n, c)), rest.map (fun c => (n, c)) ++ listed d,
        by simp [listed, e1], hh, by simp⟩
    · next s1 he =>
      obtain ⟨done, rest, e1, hh, hr⟩ := Spec.Holds.addAll (es := es) n cs h he
      have := hr rfl; subst this
      obtain ⟨done', rest', e2, hh', hr'⟩ := ih hh ha
      simp only [List.append_nil] at e1
      subst e1
      refine ⟨cs.map (fun c => (n, c)) ++ done', rest', ?_, by simpa using hh', hr'⟩
      have : listed ((n, cs) :: d) = cs.map (fun c => (n, c)) ++ listed d := rfl
      rw [this, e2]; simp

/-! ## Removal -/

theorem basicsOf_dropBasic (n m : α) (es : Entries α κ W) :
    basicsOf m (dropBasic n es) = if n = m then [] else basicsOf m es := by
  induction es with
  | nil => simp [dropBasic, basicsOf]
  | cons e es ih =>
    obtain ⟨k, c | c⟩ := e
    · simp only [dropBasic]
      by_cases hk : k = n
      · rw [if_pos hk, ih]; subst hk
        by_cases hm : k = m <;> simp [basicsOf, hm]
      · rw [if_neg hk]; simp only [basicsOf, ih]
        by_cases hm : n = m
        · subst hm; simp [hk]
        · simp [hm]
    · simp only [dropBasic, basicsOf, ih]

theorem structsOf_dropBasic (n m : α) (es : Entries α κ W) :
    structsOf m (dropBasic n es) = structsOf m es := by
  induction es with
  | nil => rfl
  | cons e es ih =>
    obtain ⟨k, c | c⟩ := e
    · simp only [dropBasic]; split <;> simp [structsOf, ih]
    · simp only [dropBasic, structsOf, ih]

theorem allStructs_dropBasic (n : α) (es : Entries α κ W) :
    allStructs (dropBasic n es) = allStructs es := by
  induction es with
  | nil => rfl
  | cons e es ih =>
    obtain ⟨k, c | c⟩ := e
    · simp only [dropBasic]; split <;> simp [allStructs, ih]
    · simp only [dropBasic, allStructs, ih]

theorem basicsOf_dropStruct (o : OId) (m : α) (es : Entries α κ W) :
    basicsOf m (dropStruct o es) = basicsOf m es := by
  induction es with
  | nil => rfl
  | cons e es ih =>
    obtain ⟨k, c | c⟩ := e
    · simp only [dropStruct, basicsOf, ih]
    · simp only [dropStruct]; split <;> simp [basicsOf, ih]

theorem structsOf_dropStruct (o : OId) (m : α) (es : Entries α κ W) :
    structsOf m (dropStruct o es) = (structsOf m es).filter (fun c => c.o ≠ o) := by
  induction es with
  | nil => rfl
  | cons e es ih =>
    obtain ⟨k, c | c⟩ := e
    · simp only [dropStruct, structsOf, ih]
    · simp only [dropStruct]
      by_cases h : c.o = o <;> by_cases hk : k = m <;> simp [h, hk, structsOf, ih]

theorem allStructs_dropStruct (o : OId) (es : Entries α κ W) :
    allStructs (dropStruct o es) = (allStructs es).filter (fun c => c.o ≠ o) := by
  induction es with
  | nil => rfl
  | cons e es ih =>
    obtain ⟨k, c | c⟩ := e
    · simp only [dropStruct, allStructs, ih]
    · simp only [dropStruct]
      by_cases h : c.o = o <;> simp [h, allStructs, ih]

theorem removeObj_eq (o : OId) (l : List (SCond α)) (hn : (l.map (·.o)).Nodup)
    (hm : o ∈ l.map (·.o)) : removeObj o l = some (l.filter (fun c => c.o ≠ o)) := by
  induction l with
  | nil => simp at hm
  | cons c l ih =>
    simp only [List.map_cons, List.nodup_cons] at hn
    unfold removeObj
    by_cases h : c.o = o
    · rw [if_pos h]
      simp only [List.filter_cons, h, ne_eq, not_true_eq_false, decide_false, Bool.false_eq_true,
        if_false, Option.some.injEq]
      refine (List.filter_eq_self.mpr ?_).symm
      intro d hd
      have : d.o ≠ o := fun e => hn.1 (by rw [h, ← e]; exact List.mem_map.mpr ⟨d, hd, rfl⟩)
      simpa using this
    · rw [if_neg h]
      have hm' : o ∈ l.map (·.o) := by
        rcases List.mem_cons.mp hm with e | e
        · exact absurd e.symm h
        · exact e
      rw [ih hn.2 hm']
      simp [h]

theorem removeObj_none (o : OId) (l : List (SCond α)) (hm : o ∉ l.map (·.o)) :
    removeObj o l = none := by
  induction l with
  | nil => rfl
  | cons c l ih =>
    simp only [List.map_cons, List.mem_cons, not_or] at hm
    unfold removeObj
    rw [if_neg (fun e => hm.1 e.symm), ih hm.2]; rfl

theorem structsOf_sublist (n : α) (es : Entries α κ W) :
    (structsOf n es).Sublist (allStructs es) := by
  induction es with
  | nil => exact List.Sublist.slnil
  | cons e es ih =>
    obtain ⟨k, c | c⟩ := e
    · simpa [structsOf, allStructs] using ih
    · simp only [structsOf, allStructs]
      split
      · exact ih.cons_cons _
      · exact ih.cons _

theorem mem_structsOf {n : α} {c : SCond α} {es : Entries α κ W} :
    c ∈ structsOf n es ↔ (n, .structural c) ∈ es := by
  induction es with
  | nil => simp [structsOf]
  | cons e es ih =>
    obtain ⟨k, d | d⟩ := e
    · simp [structsOf, ih]
    · simp only [structsOf]
      by_cases h : k = n
      · subst h; simp [ih]
      · have h' : ¬ n = k := fun e => h e.symm
        simp [h, h', ih]

theorem mem_allStructs {c : SCond α} {es : Entries α κ W} :
    c ∈ allStructs es ↔ ∃ n, (n, .structural c) ∈ es := by
  induction es with
  | nil => simp [allStructs]
  | cons e es ih =>
    obtain ⟨k, d | d⟩ := e
    · simp [allStructs, ih]
    · simp only [allStructs, List.mem_cons, ih, Prod.mk.injEq, AnyCond.structural.injEq]
      constructor
      · rintro (h | ⟨n, h⟩)
        · exact ⟨k, .inl ⟨rfl, h⟩⟩
        · exact ⟨n, .inr h⟩
      · rintro ⟨n, h | h⟩
        · exact .inl h.2
        · exact .inr ⟨n, h⟩

theorem Spec.Holds.removeBasic {s : CSet α κ W} {es : Entries α κ W} (h : Holds s es) (n : α)
    (c : Cond α κ W) : Holds { s.removeBasic n c with rebuild := true } (dropBasic n es) := by
  refine Holds.mk' rfl (h.basicWF.erase _) h.structuralWF ?_ ?_ ?_
  · intro m
    simp only [CSet.removeBasic, Dict.get?_erase h.basicWF, basicsOf_dropBasic]
    split
    · rfl
    · exact h.basic m
  · intro m; rw [structsOf_dropBasic]; exact h.structural m
  · rw [allStructs_dropBasic]; exact h.order

/-- The removal of a structural condition that is in the set once. -/
theorem Spec.Holds.removeStructural {s : CSet α κ W} {es : Entries α κ W} (h : Holds s es)
    {n : α} {c : SCond α} (hn : ((allStructs es).map (·.o)).Nodup)
    (hm : (n, .structural c) ∈ es) :
    ∃ s', s.removeStructural n c.o = (s', true) ∧ s'.store = s.store ∧ s'.owners = s.owners ∧ s'.view = s.view ∧
      s'.rebuild = s.rebuild ∧
      Holds { s' with rebuild := true } (dropStruct c.o es) := by
  have hs : structsOf n es ≠ [] := by
    intro e; have := mem_structsOf.mpr hm; rw [e] at this; simp at this
  have hmem : c.o ∈ (structsOf n es).map (·.o) :=
    List.mem_map.mpr ⟨c, mem_structsOf.mpr hm, rfl⟩
  have hmem' : c.o ∈ (allStructs es).map (·.o) :=
    List.mem_map.mpr ⟨c, mem_allStructs.mpr ⟨n, hm⟩, rfl⟩
  have hn' : ((structsOf n es).map (·.o)).Nodup :=
    ((structsOf_sublist n es).map _).nodup hn
  have hg := h.structural n
  rw [if_neg hs] at hg
  unfold CSet.removeStructural
  rw [hg]; simp only
  rw [removeObj_eq _ _ hn' hmem]; simp only
  rw [h.order, removeObj_eq _ _ hn hmem']; simp only
  -- no other owner has the object
  have hother : ∀ m, m ≠ n → c.o ∉ (structsOf m es).map (·.o) := by
    intro m hmn hin
    obtain ⟨d, hd, hdo⟩ := List.mem_map.mp hin
    have key : ∀ (es : Entries α κ W), ((allStructs es).map (·.o)).Nodup →
        (n, AnyCond.structural c) ∈ es → (m, AnyCond.structural d) ∈ es → d.o = c.o → False := by
      intro es
      induction es with
      | nil => simp
      | cons e es ih =>
        intro hnd h1 h2 ho
        obtain ⟨k, x | x⟩ := e
        · exact ih (by simpa [allStructs] using hnd) (by simpa using h1) (by simpa using h2) ho
        · simp only [allStructs, List.map_cons, List.nodup_cons] at hnd
          simp only [List.mem_cons, Prod.mk.injEq, AnyCond.structural.injEq] at h1 h2
          rcases h1 with ⟨e1, e2⟩ | h1 <;> rcases h2 with ⟨e3, e4⟩ | h2
          · exact hmn (e3.trans e1.symm)
          · exact hnd.1 (List.mem_map.mpr ⟨d, mem_allStructs.mpr ⟨m, h2⟩, by rw [ho, e2]⟩)
          · exact hnd.1 (List.mem_map.mpr ⟨c, mem_allStructs.mpr ⟨n, h1⟩, by rw [← ho, e4]⟩)
          · exact ih hnd.2 h1 h2 ho
    exact key es hn hm (mem_structsOf.mp hd) hdo
  refine ⟨_, rfl, rfl, rfl, rfl, rfl, ?_⟩
  refine Holds.mk' rfl h.basicWF ?_ ?_ ?_ ?_
  · simp only; split
    · exact h.structuralWF.erase _
    · exact h.structuralWF.set _ _
  · intro m; rw [basicsOf_dropStruct]; exact h.basic m
  · intro m
    rw [structsOf_dropStruct]
    simp only
    by_cases hmn : n = m
    · subst hmn
      split
      · rw [Dict.get?_erase h.structuralWF, if_pos rfl]
      · rw [Dict.get?_set, if_pos rfl]
    · have hf : (structsOf m es).filter (fun d => d.o ≠ c.o) = structsOf m es := by
        refine List.filter_eq_self.mpr ?_
        intro d hd
        have := hother m (fun e => hmn e.symm)
        have : d.o ≠ c.o := fun e => this (List.mem_map.mpr ⟨d, hd, e⟩)
        simpa using this
      rw [hf]
      split
      · rw [Dict.get?_erase h.structuralWF, if_neg hmn]; exact h.structural m
      · rw [Dict.get?_set, if_neg hmn]; exact h.structural m
  · rw [allStructs_dropStruct]

mutual
/-- `c.owner = v` writes only `v`. -/
theorem setOwner_or (v : Option α) : ∀ (c : Cond α κ W) (st : Store α κ) (o : OId),
    (setOwner v c st).owner o = v ∨ (setOwner v c st).owner o = st.owner o
  | .leaf o' _, st, o => by simp only [setOwner, Store.putOwner]; split <;> simp
  | .whileNot o' _, st, o => by simp only [setOwner, Store.putOwner]; split <;> simp
  | .all o' args, st, o => by
      simp only [setOwner]
      rcases setOwners_or v args (st.putOwner o' v) o with h | h
      · exact .inl h
      · rw [h]; simp only [Store.putOwner]; split <;> simp
  | .any o' args, st, o => by
      simp only [setOwner]
      rcases setOwners_or v args (st.putOwner o' v) o with h | h
      · exact .inl h
      · rw [h]; simp only [Store.putOwner]; split <;> simp
  | .not o' c, st, o => by
      simp only [setOwner]
      rcases setOwner_or v c (st.putOwner o' v) o with h | h
      · exact .inl h
      · rw [h]; simp only [Store.putOwner]; split <;> simp
  | .nwhen o' c _, st, o => by
      simp only [setOwner]
      rcases setOwner_or v c (st.putOwner o' v) o with h | h
      · exact .inl h
      · rw [h]; simp only [Store.putOwner]; split <;> simp
theorem setOwners_or (v : Option α) : ∀ (cs : List (Cond α κ W)) (st : Store α κ) (o : OId),
    (setOwners v cs st).owner o = v ∨ (setOwners v cs st).owner o = st.owner o
  | [], st, o => by simp [setOwners]
  | c :: cs, st, o => by
      simp only [setOwners]
      split
      · rcases setOwners_or v cs (setOwner v c st) o with h | h
        · exact .inl h
        · rw [h]; exact setOwner_or v c st o
      · exact setOwners_or v cs st o
end

/-- After `c.owner = v`, `c.owner` is `v`. -/
theorem setOwner_self (v : Option α) (c : Cond α κ W) (st : Store α κ) :
    (setOwner v c st).owner c.oid = v := by
  cases c with
  | leaf o b => simp [setOwner, Store.putOwner, Cond.oid]
  | whileNot o b => simp [setOwner, Store.putOwner, Cond.oid]
  | all o args =>
    simp only [setOwner, Cond.oid]
    rcases setOwners_or v args (st.putOwner o v) o with h | h <;> rw [h]
    simp [Store.putOwner]
  | any o args =>
    simp only [setOwner, Cond.oid]
    rcases setOwners_or v args (st.putOwner o v) o with h | h <;> rw [h]
    simp [Store.putOwner]
  | not o c =>
    simp only [setOwner, Cond.oid]
    rcases setOwner_or v c (st.putOwner o v) o with h | h <;> rw [h]
    simp [Store.putOwner]
  | nwhen o c n =>
    simp only [setOwner, Cond.oid]
    rcases setOwner_or v c (st.putOwner o v) o with h | h <;> rw [h]
    simp [Store.putOwner]

end GS

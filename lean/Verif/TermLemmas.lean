import Verif.Spec.TermConds
/-!
# Lemmas about parsing termination conditions
-/

set_option linter.unusedSectionVars false

namespace GS
open Spec
variable {β : Type _}

theorem scaleNamed_iff {s : String} {ts : TimeScale} :
    scaleNamed s = some ts ↔ s.toUpper = nameOf ts := by
  unfold scaleNamed
  constructor
  · intro h
    repeat' split at h
    all_goals first | (cases h; assumption) | cases h
  · intro h
    cases ts <;> simp [nameOf] at h <;> simp [h]

theorem renameStep_cases (d : TArg β) (del : List TKey) (k : TKey) :
    renameStep d del k = (d, del) ∨
    ∃ s ts v, k = .name s ∧ scaleNamed s = some ts ∧ Dict.get? d (.name s) = some v ∧
      renameStep d del k = (Dict.set d (.scale ts) v, .name s :: del) := by
  cases k with
  | scale ts => exact .inl rfl
  | other n => exact .inl rfl
  | name s =>
    rw [renameStep]
    split
    · rename_i ts v hs hv
      exact .inr ⟨s, ts, v, rfl, hs, hv, rfl⟩
    · exact .inl rfl

theorem renameStep_keys {d : TArg β} {del : List TKey} {k : TKey}
    (h : (renameStep d del k).1.length = d.length) :
    Dict.keys (renameStep d del k).1 = Dict.keys d := by
  rcases renameStep_cases d del k with e | ⟨s, ts, v, _, _, _, e⟩
  · rw [e]
  · rw [e] at h ⊢
    simp only at h ⊢
    rw [Dict.keys_set]
    split
    · rfl
    · rename_i hn
      exfalso
      have h1 : (Dict.keys (Dict.set d (.scale ts) v)).length = (Dict.keys d).length := by
        simp only [Dict.keys, List.length_map]; exact h
      rw [Dict.keys_set, if_neg hn] at h1
      simp at h1

theorem renameStep_get {d : TArg β} {del : List TKey} {k k' : TKey}
    (hk : ∀ ts, k' ≠ .scale ts) : Dict.get? (renameStep d del k).1 k' = Dict.get? d k' := by
  rcases renameStep_cases d del k with e | ⟨s, ts, v, _, _, _, e⟩
  · rw [e]
  · rw [e]
    simp only
    rw [Dict.get?_set, if_neg (fun e => hk ts e.symm)]

/-- The name `s` is a key of the dict and names `ts`. -/
def NamedBy (ks : List TKey) (ts : TimeScale) (s : String) : Prop :=
  TKey.name s ∈ ks ∧ scaleNamed s = some ts

theorem renameStep_scale {d : TArg β} {del : List TKey} {k : TKey} {ts : TimeScale}
    (hk : ∀ s, k = .name s → scaleNamed s ≠ some ts) :
    Dict.get? (renameStep d del k).1 (.scale ts) = Dict.get? d (.scale ts) := by
  rcases renameStep_cases d del k with e | ⟨s, ts', v, h1, h2, _, e⟩
  · rw [e]
  · rw [e]
    simp only
    rw [Dict.get?_set, if_neg]
    intro e
    cases e
    exact hk s h1 h2

theorem renameStep_eq {d : TArg β} {del : List TKey} {s : String} {ts : TimeScale} {v : TVal β}
    (hs : scaleNamed s = some ts) (hv : Dict.get? d (.name s) = some v) :
    renameStep d del (.name s) = (Dict.set d (.scale ts) v, .name s :: del) := by
  rw [renameStep, hs, hv]

theorem renameStep_name {d : TArg β} {del : List TKey} {s : String} {ts : TimeScale}
    (hs : scaleNamed s = some ts) (hm : TKey.name s ∈ Dict.keys d) :
    Dict.get? (renameStep d del (.name s)).1 (.scale ts) = Dict.get? d (.name s) ∧
      (renameStep d del (.name s)).2 = .name s :: del := by
  have hsome := Dict.get?_isSome.mpr hm
  rcases hv : Dict.get? d (.name s) with _ | v
  · rw [hv] at hsome; exact absurd hsome (by simp)
  · rw [renameStep_eq hs hv]
    exact ⟨by rw [Dict.get?_set, if_pos rfl], rfl⟩

theorem renameStep_del {d : TArg β} {del : List TKey} {k x : TKey}
    (hm : k ∈ Dict.keys d) :
    x ∈ (renameStep d del k).2 ↔ x ∈ del ∨ (x = k ∧ ∃ s ts, k = .name s ∧ scaleNamed s = some ts) := by
  cases k with
  | scale ts => simp [renameStep]
  | other n => simp [renameStep]
  | name s =>
    rcases hs : scaleNamed s with _ | ts
    · unfold renameStep
      simp [hs]
    · rw [(renameStep_name hs hm).2]
      simp only [List.mem_cons]
      constructor
      · rintro (h | h)
        · exact .inr ⟨h, s, ts, rfl, hs⟩
        · exact .inl h
      · rintro (h | ⟨h, _⟩)
        · exact .inr h
        · exact .inl h

theorem renameLoop_ok {n0 : Nat} : ∀ {ks : List TKey} {d : TArg β} {del : List TKey} {d' : TArg β}
    {del' : List TKey}, d.length = n0 → (∀ k ∈ ks, k ∈ Dict.keys d) →
    renameLoop n0 ks d del = (d', .ok del') →
    Dict.keys d' = Dict.keys d ∧
    (∀ k, (∀ ts, k ≠ .scale ts) → Dict.get? d' k = Dict.get? d k) ∧
    (∀ k, k ∈ del' ↔ k ∈ del ∨ (k ∈ ks ∧ ∃ s ts, k = .name s ∧ scaleNamed s = some ts)) ∧
    (∀ ts, (∀ s, ¬ NamedBy ks ts s) → Dict.get? d' (.scale ts) = Dict.get? d (.scale ts)) ∧
    (∀ ts s, NamedBy ks ts s → (∀ s', NamedBy ks ts s' → s' = s) →
      Dict.get? d' (.scale ts) = Dict.get? d (.name s)) := by
  intro ks
  induction ks with
  | nil =>
    intro d del d' del' _ _ h
    simp only [renameLoop, Prod.mk.injEq, Except.ok.injEq] at h
    obtain ⟨rfl, rfl⟩ := h
    refine ⟨rfl, fun _ _ => rfl, by simp, fun _ _ => rfl, ?_⟩
    intro ts s hn
    exact absurd hn.1 (by simp)
  | cons k ks ih =>
    intro d del d' del' hlen hsub h
    unfold renameLoop at h
    split at h
    · rename_i hl
      have hkeys := renameStep_keys (hl.trans hlen.symm)
      have hsub' : ∀ x ∈ ks, x ∈ Dict.keys (renameStep d del k).1 := by
        intro x hx; rw [hkeys]; exact hsub x (List.mem_cons_of_mem _ hx)
      obtain ⟨i1, i2, i3, i4, i5⟩ := ih hl hsub' h
      have hk : k ∈ Dict.keys d := hsub k List.mem_cons_self
      refine ⟨i1.trans hkeys, fun x hx => (i2 x hx).trans (renameStep_get hx), ?_, ?_, ?_⟩
      · intro x
        rw [i3, renameStep_del hk]
        simp only [List.mem_cons]
        constructor
        · rintro ((h | ⟨rfl, h⟩) | ⟨h, h'⟩)
          · exact .inl h
          · exact .inr ⟨.inl rfl, h⟩
          · exact .inr ⟨.inr h, h'⟩
        · rintro (h | ⟨rfl | h, h'⟩)
          · exact .inl (.inl h)
          · exact .inl (.inr ⟨rfl, h'⟩)
          · exact .inr ⟨h, h'⟩
      · intro ts hno
        rw [i4 ts (fun s hs => hno s ⟨List.mem_cons_of_mem _ hs.1, hs.2⟩)]
        refine renameStep_scale ?_
        intro s e hs
        exact hno s ⟨e ▸ List.mem_cons_self, hs⟩
      · intro ts s hs huniq
        by_cases hin : NamedBy ks ts s
        · rw [i5 ts s hin (fun s' h' => huniq s' ⟨List.mem_cons_of_mem _ h'.1, h'.2⟩)]
          exact renameStep_get (by intro ts e; cases e)
        · have hks : k = .name s := by
            rcases List.mem_cons.mp hs.1 with h | h
            · exact h.symm
            · exact absurd ⟨h, hs.2⟩ hin
          rw [i4 ts]
          · subst hks
            exact (renameStep_name hs.2 hk).1
          · intro s' hs'
            have := huniq s' ⟨List.mem_cons_of_mem _ hs'.1, hs'.2⟩
            subst this
            exact hin hs'
    · simp only [Prod.mk.injEq, reduceCtorEq, and_false] at h

theorem get?_kept : ∀ {d : TArg β} (ts : TimeScale), Dict.WF d →
    Dict.get? (d.filterMap keptEntry) ts = match Dict.get? d (.scale ts) with
      | some (.cond c) => some c
      | _ => none := by
  intro d
  induction d with
  | nil => intro ts _; rfl
  | cons p d ih =>
    intro ts hwf
    obtain ⟨k, v⟩ := p
    have hwf' : Dict.WF d := (List.nodup_cons.mp hwf).2
    have hk : k ∉ Dict.keys d := (List.nodup_cons.mp hwf).1
    rw [List.filterMap_cons, Dict.get?_cons]
    cases k with
    | name s => simp only [keptEntry, reduceCtorEq, if_false]; exact ih ts hwf'
    | other n => simp only [keptEntry, reduceCtorEq, if_false]; exact ih ts hwf'
    | scale t =>
      cases v with
      | cond c =>
        simp only [keptEntry, Dict.get?_cons, TKey.scale.injEq]
        by_cases e : t = ts
        · simp [e]
        · simp only [e, if_false]; exact ih ts hwf'
      | notCond n =>
        simp only [keptEntry, TKey.scale.injEq]
        by_cases e : t = ts
        · subst e
          simp only [if_true]
          rw [ih t hwf']
          rw [Dict.get?_eq_none.mpr hk]
        · simp only [e, if_false]; exact ih ts hwf'

theorem WF_kept : ∀ {d : TArg β}, Dict.WF d → Dict.WF (d.filterMap keptEntry) := by
  intro d
  induction d with
  | nil => intro _; exact List.nodup_nil
  | cons p d ih =>
    intro hwf
    obtain ⟨k, v⟩ := p
    have hwf' : Dict.WF d := (List.nodup_cons.mp hwf).2
    have hk : k ∉ Dict.keys d := (List.nodup_cons.mp hwf).1
    rw [List.filterMap_cons]
    cases k with
    | name s => exact ih hwf'
    | other n => exact ih hwf'
    | scale t =>
      cases v with
      | notCond n => exact ih hwf'
      | cond c =>
        simp only [keptEntry]
        refine List.nodup_cons.mpr ⟨?_, ih hwf'⟩
        intro hm
        have h1 := Dict.get?_isSome.mpr hm
        rw [get?_kept t hwf', Dict.get?_eq_none.mpr hk] at h1
        exact absurd h1 (by simp)

/-- What parsing returns. -/
theorem parseTerm_ok {d d' : TArg β} {p : Dict TimeScale β} (hwf : Dict.WF d)
    (huniq : ∀ ts s s', NamedBy (Dict.keys d) ts s → NamedBy (Dict.keys d) ts s' → s' = s)
    (h : parseTerm d = (d', .ok p)) :
    Dict.WF p ∧ Dict.keys d' = Dict.keys d ∧
    (∀ ts c, Dict.get? p ts = some c ↔
      (∃ s, NamedBy (Dict.keys d) ts s ∧ Dict.get? d (.name s) = some (.cond c)) ∨
      ((∀ s, ¬ NamedBy (Dict.keys d) ts s) ∧ Dict.get? d (.scale ts) = some (.cond c))) ∧
    (∀ ts, (∃ s, NamedBy (Dict.keys d) ts s) ∨ TKey.scale ts ∈ Dict.keys d →
      ∃ c, Dict.get? p ts = some c) := by
  unfold parseTerm at h
  rcases hr : renameLoop d.length (Dict.keys d) d [] with ⟨d1, _ | del⟩
  · rw [hr] at h
    simp only [Prod.mk.injEq, reduceCtorEq, and_false] at h
  · rw [hr] at h
    simp only at h
    split at h
    · rename_i hall
      simp only [Prod.mk.injEq, Except.ok.injEq] at h
      obtain ⟨rfl, rfl⟩ := h
      obtain ⟨k1, k2, k3, k4, k5⟩ := renameLoop_ok rfl (fun _ h => h) hr
      have hwf1 : Dict.WF d1 := by unfold Dict.WF; rw [k1]; exact hwf
      have key : ∀ ts c, Dict.get? (d1.filterMap keptEntry) ts = some c ↔
          Dict.get? d1 (.scale ts) = some (.cond c) := by
        intro ts c
        rw [get?_kept ts hwf1]
        rcases Dict.get? d1 (.scale ts) with _ | (c' | n) <;> simp
      have hscale : ∀ ts, TKey.scale ts ∈ Dict.keys d1 →
          ∃ c, Dict.get? d1 (.scale ts) = some (.cond c) := by
        intro ts hm
        have h1 := Dict.get?_isSome.mpr hm
        rcases hv : Dict.get? d1 (.scale ts) with _ | v
        · rw [hv] at h1; exact absurd h1 (by simp)
        · have hmem := Dict.mem_of_get? hv
          have h2 := List.all_eq_true.mp hall _ hmem
          cases v with
          | cond c => exact ⟨c, rfl⟩
          | notCond n =>
            exfalso
            simp only [keptEntry, Option.isSome_none, Bool.false_or, decide_eq_true_eq] at h2
            rcases (k3 _).mp h2 with h3 | ⟨_, s, t, h3, _⟩
            · exact absurd h3 (by simp)
            · cases h3
      refine ⟨WF_kept hwf1, k1, ?_, ?_⟩
      · intro ts c
        rw [key]
        by_cases hn : ∃ s, NamedBy (Dict.keys d) ts s
        · obtain ⟨s, hs⟩ := hn
          rw [k5 ts s hs (fun s' h' => huniq ts s s' hs h')]
          constructor
          · exact fun h => .inl ⟨s, hs, h⟩
          · rintro (⟨s', hs', h⟩ | ⟨h, _⟩)
            · rw [huniq ts s s' hs hs'] at h; exact h
            · exact absurd hs (h s)
        · have hn' : ∀ s, ¬ NamedBy (Dict.keys d) ts s := fun s hs => hn ⟨s, hs⟩
          rw [k4 ts hn']
          constructor
          · exact fun h => .inr ⟨hn', h⟩
          · rintro (⟨s', hs', h⟩ | ⟨_, h⟩)
            · exact absurd hs' (hn' s')
            · exact h
      · intro ts hm
        suffices ∃ c, Dict.get? d1 (.scale ts) = some (.cond c) by
          obtain ⟨c, hc⟩ := this
          exact ⟨c, (key ts c).mpr hc⟩
        apply hscale
        rcases hm with ⟨s, hs⟩ | hm
        · have h1 := k5 ts s hs (fun s' h' => huniq ts s s' hs h')
          apply Dict.get?_isSome.mp
          rw [h1]
          exact Dict.get?_isSome.mpr hs.1
        · rw [k1]; exact hm
    · simp only [Prod.mk.injEq, reduceCtorEq, and_false] at h

/-- A dict with members as keys and conditions as values is returned unchanged. -/
theorem parseTerm_members {d : TArg β}
    (h : ∀ p ∈ d, ∃ ts c, p = (TKey.scale ts, TVal.cond c)) :
    parseTerm d = (d, .ok (d.filterMap keptEntry)) := by
  have hloop : ∀ ks : List TKey, (∀ k ∈ ks, ∃ ts, k = TKey.scale ts) →
      renameLoop d.length ks d [] = (d, .ok []) := by
    intro ks
    induction ks with
    | nil => intro _; rfl
    | cons k ks ih =>
      intro hk
      obtain ⟨ts, rfl⟩ := hk k List.mem_cons_self
      unfold renameLoop
      simp only [renameStep, if_true]
      exact ih (fun x hx => hk x (List.mem_cons_of_mem _ hx))
  unfold parseTerm
  rw [hloop]
  · simp only
    rw [if_pos]
    rw [List.all_eq_true]
    intro p hp
    obtain ⟨ts, c, rfl⟩ := h p hp
    simp [keptEntry]
  · intro k hk
    obtain ⟨p, hp, rfl⟩ := List.mem_map.mp hk
    obtain ⟨ts, c, rfl⟩ := h p hp
    exact ⟨ts, rfl⟩

theorem renameLoop_stays : ∀ {ks : List TKey} {d : TArg β} {del : List TKey},
    (∀ k ∈ ks, k ∈ Dict.keys d) →
    (∀ s ts, NamedBy ks ts s → TKey.scale ts ∈ Dict.keys d) → (∀ p ∈ d, ∃ c, p.2 = TVal.cond c) →
    ∃ d' del', renameLoop d.length ks d del = (d', .ok del') ∧ ∀ p ∈ d', ∃ c, p.2 = TVal.cond c := by
  intro ks
  induction ks with
  | nil => intro d del _ _ hc; exact ⟨d, del, rfl, hc⟩
  | cons k ks ih =>
    intro d del hsub hn hc
    have hstep : (renameStep d del k).1.length = d.length ∧
        ∀ p ∈ (renameStep d del k).1, ∃ c, p.2 = TVal.cond c := by
      rcases renameStep_cases d del k with e | ⟨s, ts, v, h1, h2, h3, e⟩
      · rw [e]; exact ⟨rfl, hc⟩
      · rw [e]
        simp only
        constructor
        · have hm := hn s ts ⟨h1 ▸ List.mem_cons_self, h2⟩
          have := Dict.keys_set d (TKey.scale ts) v
          rw [if_pos hm] at this
          simpa [Dict.keys] using congrArg List.length this
        · obtain ⟨c, hv⟩ := hc _ (Dict.mem_of_get? h3)
          simp only at hv
          subst hv
          clear h3 hn hsub e ih
          induction d with
          | nil => intro p hp; simp [Dict.set] at hp; exact ⟨c, by rw [hp]⟩
          | cons q d ih =>
            intro p hp
            unfold Dict.set at hp
            split at hp
            · rcases List.mem_cons.mp hp with rfl | hp
              · exact ⟨c, rfl⟩
              · exact hc p (List.mem_cons_of_mem _ hp)
            · rcases List.mem_cons.mp hp with rfl | hp
              · exact hc _ List.mem_cons_self
              · exact ih (fun p hp => hc p (List.mem_cons_of_mem _ hp)) p hp
    unfold renameLoop
    rw [if_pos hstep.1]
    have hkeys := renameStep_keys hstep.1
    have := ih (d := (renameStep d del k).1) (del := (renameStep d del k).2)
      (fun x hx => by rw [hkeys]; exact hsub x (List.mem_cons_of_mem _ hx))
      (fun s ts h => by rw [hkeys]; exact hn s ts ⟨List.mem_cons_of_mem _ h.1, h.2⟩) hstep.2
    rw [hstep.1] at this
    exact this

/-- A dict is accepted if its keys name time scales, its values are conditions, and
names are used only for time scales whose member is also a key. -/
theorem parseTerm_accepts {d : TArg β} (hc : ∀ p ∈ d, ∃ c, p.2 = TVal.cond c)
    (hk : ∀ k ∈ Dict.keys d, ∃ ts, KeyNames k ts)
    (hn : ∀ s ts, NamedBy (Dict.keys d) ts s → TKey.scale ts ∈ Dict.keys d) :
    ∃ d' p, parseTerm d = (d', .ok p) := by
  obtain ⟨d', del', h1, h2⟩ := renameLoop_stays (del := []) (fun _ h => h) hn hc
  obtain ⟨k1, _, k3, _⟩ := renameLoop_ok rfl (fun _ h => h) h1
  unfold parseTerm
  rw [h1]
  simp only
  rw [if_pos]
  · exact ⟨_, _, rfl⟩
  · rw [List.all_eq_true]
    intro p hp
    obtain ⟨k, v⟩ := p
    obtain ⟨c, hv⟩ := h2 _ hp
    simp only at hv
    subst hv
    have hkd : k ∈ Dict.keys d := by
      rw [← k1]; exact List.mem_map.mpr ⟨_, hp, rfl⟩
    obtain ⟨ts, hts⟩ := hk k hkd
    cases k with
    | scale t => simp [keptEntry]
    | other n => exact absurd hts id
    | name s =>
      have : TKey.name s ∈ del' := (k3 _).mpr (.inr ⟨hkd, s, ts, rfl, scaleNamed_iff.mpr hts⟩)
      simp [this]

/-- Naming a time scale whose member is not a key changes the size of the dict that is
being iterated over. -/
theorem renameLoop_grows : ∀ {ks : List TKey} {d : TArg β} {del : List TKey} {s : String}
    {ts : TimeScale}, (∀ k ∈ ks, k ∈ Dict.keys d) → NamedBy ks ts s →
    TKey.scale ts ∉ Dict.keys d →
    ∃ d', renameLoop d.length ks d del = (d', .error .runtimeError) ∧
      ∃ ts', TKey.scale ts' ∉ Dict.keys d ∧ TKey.scale ts' ∈ Dict.keys d' := by
  intro ks
  induction ks with
  | nil => intro d del s ts _ hn; exact absurd hn.1 (by simp)
  | cons k ks ih =>
    intro d del s ts hsub hn hno
    unfold renameLoop
    split
    · rename_i hl
      have hkeys := renameStep_keys hl
      have hin : NamedBy ks ts s := by
        refine ⟨?_, hn.2⟩
        rcases List.mem_cons.mp hn.1 with h | h
        · exfalso
          subst h
          have := (renameStep_name (del := del) hn.2 (hsub _ List.mem_cons_self)).1
          apply hno
          rw [← hkeys]
          apply Dict.get?_isSome.mp
          rw [this]
          exact Dict.get?_isSome.mpr (hsub _ List.mem_cons_self)
        · exact h
      have := ih (d := (renameStep d del k).1) (del := (renameStep d del k).2)
        (fun x hx => by rw [hkeys]; exact hsub x (List.mem_cons_of_mem _ hx)) hin
        (by rw [hkeys]; exact hno)
      rw [hl, hkeys] at this
      exact this
    · rename_i hl
      refine ⟨_, rfl, ?_⟩
      cases k with
      | scale t => exact absurd rfl hl
      | other n => exact absurd rfl hl
      | name s' =>
        have hk : TKey.name s' ∈ Dict.keys d := hsub _ List.mem_cons_self
        rcases hs : scaleNamed s' with _ | t
        · exact absurd (by simp [renameStep, hs]) hl
        · refine ⟨t, ?_, ?_⟩
          · intro hm
            apply hl
            have hsome := Dict.get?_isSome.mpr hk
            rcases hv : Dict.get? d (.name s') with _ | v
            · rw [hv] at hsome; exact absurd hsome (by simp)
            · rw [renameStep_eq hs hv]
              have := Dict.keys_set d (TKey.scale t) v
              rw [if_pos hm] at this
              have := congrArg List.length this
              simpa [Dict.keys] using this
          · apply Dict.get?_isSome.mp
            rw [(renameStep_name hs hk).1]
            exact Dict.get?_isSome.mpr hk

end GS

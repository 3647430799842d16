import Verif.Spec.GSCArgs

/-! # Lemmas about the constructors of the repositioning conditions -/

set_option linter.unusedSectionVars false

namespace GS

open GS.Spec

variable {α : Type _} [DecidableEq α]

/-! ## Upper and lower case -/

theorem lower_toNat (c : Char) :
    c.toLower.toNat = if 65 ≤ c.toNat ∧ c.toNat ≤ 90 then c.toNat + 32 else c.toNat := by
  unfold Char.toLower
  simp only [ge_iff_le, UInt32.le_iff_toNat_le]
  have h : (65 ≤ c.toNat ∧ c.toNat ≤ 90) ↔
    ('A'.val.toNat ≤ c.val.toNat ∧ c.val.toNat ≤ 'Z'.val.toNat) := Iff.rfl
  simp only [h]
  split
  · rename_i hh
    have hh' := h.2 hh
    show (c.val + ('a'.val - 'A'.val)).toNat = c.val.toNat + 32
    have e : ('a'.val - 'A'.val) = 32 := by decide
    rw [e, UInt32.toNat_add]
    have : (32 : UInt32).toNat = 32 := rfl
    have : c.toNat = c.val.toNat := rfl
    omega
  · rfl

theorem upper_toNat (c : Char) :
    c.toUpper.toNat = if 97 ≤ c.toNat ∧ c.toNat ≤ 122 then c.toNat - 32 else c.toNat := by
  unfold Char.toUpper
  simp only [UInt32.le_iff_toNat_le]
  have h : (97 ≤ c.toNat ∧ c.toNat ≤ 122) ↔
    ('a'.val.toNat ≤ c.val.toNat ∧ c.val.toNat ≤ 'z'.val.toNat) := Iff.rfl
  simp only [h]
  split
  · rename_i hh
    have hh' := h.2 hh
    show (c.val + ('A'.val - 'a'.val)).toNat = c.val.toNat - 32
    have e : ('A'.val - 'a'.val) = 4294967264 := by decide
    rw [e, UInt32.toNat_add]
    have : (4294967264 : UInt32).toNat = 4294967264 := rfl
    have : c.toNat = c.val.toNat := rfl
    omega
  · rfl

theorem char_toNat_inj {a b : Char} (h : a.toNat = b.toNat) : a = b :=
  Char.ext (UInt32.toNat_inj.1 h)

theorem upper_lower (c : Char) : c.toLower.toUpper = c.toUpper := by
  apply char_toNat_inj
  rw [upper_toNat, upper_toNat, lower_toNat]
  repeat' split
  all_goals omega

theorem lower_upper (c : Char) : c.toUpper.toLower = c.toLower := by
  apply char_toNat_inj
  rw [lower_toNat, lower_toNat, upper_toNat]
  repeat' split
  all_goals omega

theorem map_upper_lower (w : Word) : (w.map Char.toLower).map Char.toUpper = w.map Char.toUpper := by
  rw [List.map_map]; exact List.map_congr_left fun c _ => upper_lower c

theorem map_lower_upper (w : Word) : (w.map Char.toUpper).map Char.toLower = w.map Char.toLower := by
  rw [List.map_map]; exact List.map_congr_left fun c _ => lower_upper c

/-! ## Parsing one option -/

/-- The table of members has the documented names. -/
theorem members_names : ∀ p ∈ operMembers, p.1.map Char.toLower = (operName p.2).toList := by
  decide +kernel

theorem members_find (o : Oper) :
    operMembers.find? (fun p => p.1 = (operName o).toList.map Char.toUpper) =
      some ((operName o).toList.map Char.toUpper, o) := by
  cases o <;> decide +kernel

theorem parse_of_denotes {a : Arg} {o : Oper} (h : Denotes a o) : parseArg a = .op o := by
  cases a with
  | op o' => cases h; rfl
  | name w =>
    have h : w.map Char.toLower = (operName o).toList := h
    unfold parseArg
    simp only
    rw [← map_upper_lower w, h, members_find]

theorem denotes_of_parse {a : Arg} {o : Oper} (h : parseArg a = .op o) : Denotes a o := by
  cases a with
  | op o' => cases h; rfl
  | name w =>
    unfold parseArg at h
    simp only at h
    split at h
    · rename_i p hp
      cases h
      have h1 := List.find?_some hp
      have h2 := members_names p (List.mem_of_find?_eq_some hp)
      have h1 : p.1 = w.map Char.toUpper := of_decide_eq_true h1
      rw [h1, map_lower_upper] at h2
      exact h2
    · cases h

theorem denotes_iff (a : Arg) (o : Oper) : Denotes a o ↔ parseArg a = .op o :=
  ⟨parse_of_denotes, denotes_of_parse⟩

theorem parse_idem (a : Arg) : parseArg (parseArg a) = parseArg a := by
  cases a with
  | op o => rfl
  | name w =>
    show parseArg (parseArg (.name w)) = parseArg (.name w)
    cases h : parseArg (.name w) with
    | op o => rfl
    | name w' =>
      have : w' = w := by
        unfold parseArg at h
        simp only at h
        split at h
        · cases h
        · cases h; rfl
      subst this
      exact h

/-- What parsing leaves a string denotes nothing. -/
theorem parse_name {a : Arg} {w : Word} (h : parseArg a = .name w) : a = .name w := by
  cases a with
  | op o => cases h
  | name w' =>
    unfold parseArg at h
    simp only at h
    split at h
    · cases h
    · exact h

/-! ## The loop over a dict -/

theorem parseItems_get (nodes : List α) (items : List (α × Arg)) (d : Dict α Arg)
    (hnd : (items.map Prod.fst).Nodup) (hi : ∀ p ∈ items, Dict.get? d p.1 = some p.2) (n : α) :
    Dict.keys (parseItems nodes items d).1 = Dict.keys d ∧
    (Dict.get? (parseItems nodes items d).1 n = Dict.get? d n ∨
      Dict.get? (parseItems nodes items d).1 n = (Dict.get? d n).map parseArg) ∧
    ((parseItems nodes items d).2 = true → n ∈ items.map Prod.fst →
      Dict.get? (parseItems nodes items d).1 n = (Dict.get? d n).map parseArg) ∧
    (n ∉ items.map Prod.fst → Dict.get? (parseItems nodes items d).1 n = Dict.get? d n) := by
  induction items generalizing d with
  | nil => exact ⟨rfl, .inl rfl, fun _ h => (by cases h), fun _ => rfl⟩
  | cons p rest ih =>
    obtain ⟨k, v⟩ := p
    have hkv : Dict.get? d k = some v := hi (k, v) (List.mem_cons_self ..)
    rw [List.map_cons, List.nodup_cons] at hnd
    unfold parseItems
    by_cases hk : k ∉ nodes
    · rw [if_pos hk]
      exact ⟨rfl, .inl rfl, fun h => (by cases h), fun _ => rfl⟩
    · rw [if_neg hk]
      have hrest : ∀ p ∈ rest, Dict.get? (Dict.set d k (parseArg v)) p.1 = some p.2 := by
        intro p hp
        have hne : k ≠ p.1 := fun e => hnd.1 (e ▸ List.mem_map.2 ⟨p, hp, rfl⟩)
        rw [Dict.get?_set, if_neg hne]
        exact hi p (List.mem_cons_of_mem _ hp)
      obtain ⟨i1, i2, i3, i4⟩ := ih (Dict.set d k (parseArg v)) hnd.2 hrest
      have hmem : k ∈ Dict.keys d := Dict.get?_isSome.1 (by rw [hkv]; rfl)
      refine ⟨?_, ?_, ?_, ?_⟩
      · rw [i1, Dict.keys_set, if_pos hmem]
      · by_cases e : k = n
        · subst e
          right
          rw [i4 hnd.1, Dict.get?_set, if_pos rfl, hkv]
          rfl
        · rw [Dict.get?_set, if_neg e] at i2
          exact i2
      · intro hb hn
        by_cases e : k = n
        · subst e
          rw [i4 hnd.1, Dict.get?_set, if_pos rfl, hkv]
          rfl
        · have hn' : n ∈ rest.map Prod.fst := by
            rcases List.mem_cons.1 hn with h | h
            · exact absurd h.symm e
            · exact h
          have := i3 hb hn'
          rw [Dict.get?_set, if_neg e] at this
          exact this
      · intro hn
        have hn1 : k ≠ n := fun e => hn (List.mem_cons.2 (.inl e.symm))
        have hn2 : n ∉ rest.map Prod.fst := fun h => hn (List.mem_cons_of_mem _ h)
        rw [i4 hn2, Dict.get?_set, if_neg hn1]

theorem parseItems_flag (nodes : List α) (items : List (α × Arg)) (d : Dict α Arg) :
    (parseItems nodes items d).2 = true ↔ ∀ n ∈ items.map Prod.fst, n ∈ nodes := by
  induction items generalizing d with
  | nil => exact ⟨fun _ _ h => (by cases h), fun _ => rfl⟩
  | cons p rest ih =>
    obtain ⟨k, v⟩ := p
    unfold parseItems
    by_cases hk : k ∉ nodes
    · rw [if_pos hk]
      exact ⟨fun h => (by cases h), fun h => absurd (h k (List.mem_cons_self ..)) hk⟩
    · rw [if_neg hk, ih]
      have hk : k ∈ nodes := Decidable.not_not.1 hk
      constructor
      · intro h n hn
        rcases List.mem_cons.1 hn with e | hn
        · exact e ▸ hk
        · exact h n hn
      · exact fun h n hn => h n (List.mem_cons_of_mem _ hn)

/-! ## Dicts over time -/

/-- Every dict has distinct keys. -/
def DictsWF (H : Dicts α) : Prop := ∀ d, Dict.WF (H d)

/-- What constructor calls do to the dicts: entries are kept or parsed. -/
structure Evolves (H H' : Dicts α) : Prop where
  keys : ∀ d, Dict.keys (H' d) = Dict.keys (H d)
  entry : ∀ d n, Dict.get? (H' d) n = Dict.get? (H d) n ∨
    Dict.get? (H' d) n = (Dict.get? (H d) n).map parseArg

theorem Evolves.refl (H : Dicts α) : Evolves H H := ⟨fun _ => rfl, fun _ _ => .inl rfl⟩

theorem Evolves.trans {H H' H'' : Dicts α} (h : Evolves H H') (h' : Evolves H' H'') :
    Evolves H H'' where
  keys d := (h'.keys d).trans (h.keys d)
  entry d n := by
    rcases h.entry d n with e | e <;> rcases h'.entry d n with e' | e'
    · exact .inl (e'.trans e)
    · exact .inr (by rw [e', e])
    · exact .inr (e'.trans e)
    · right
      rw [e', e, Option.map_map]
      congr 1
      exact funext fun a => parse_idem a

theorem Evolves.wf {H H' : Dicts α} (h : Evolves H H') (hw : DictsWF H) : DictsWF H' := by
  intro d
  show (Dict.keys (H' d)).Nodup
  rw [h.keys d]
  exact hw d

theorem handleSubject_evolves (nodes : List α) {H : Dicts α} (hw : DictsWF H) (s : Subj) :
    Evolves H (handleSubject nodes H s).1 := by
  cases s with
  | one a => exact .refl H
  | dict d =>
    have hp := fun n => parseItems_get nodes (H d) (H d) (hw d)
      (fun p hp => Dict.get?_of_mem (hw d) hp) n
    have key : (handleSubject nodes H (.dict d)).1 = H.put d (parseItems nodes (H d) (H d)).1 := by
      unfold handleSubject
      simp only
      split
      · rfl
      · split <;> rfl
    rw [key]
    constructor
    · intro i
      unfold Dicts.put
      split
      · rename_i e; subst e
        rcases hd : H i with _ | ⟨⟨k, v⟩, r⟩
        · rfl
        · rw [← hd]; exact (hp k).1
      · rfl
    · intro i n
      unfold Dicts.put
      split
      · rename_i e; subst e; exact (hp n).2.1
      · exact .inl rfl

/-- Whether the options for the subjects are accepted. -/
theorem handleSubject_ok (nodes : List α) {H : Dicts α} (hw : DictsWF H) (s : Subj) :
    (OnlySubjects H nodes (some s) → ∃ s', (handleSubject nodes H s).2 = .ok s' ∧
      (∀ H' n, Evolves (handleSubject nodes H s).1 H' → n ∈ nodes →
        getSubject H' s' n = (getSubject H s n).map parseArg)) ∧
    (¬ OnlySubjects H nodes (some s) → (handleSubject nodes H s).2 = .error .conditionError) := by
  cases s with
  | one a =>
    refine ⟨fun _ => ⟨_, rfl, fun _ _ _ _ => rfl⟩, fun h => absurd ?_ h⟩
    intro d e; cases e
  | dict d =>
    have hp := fun n => parseItems_get nodes (H d) (H d) (hw d)
      (fun p hp => Dict.get?_of_mem (hw d) hp) n
    have hflag := parseItems_flag nodes (H d) (H d)
    have honly : OnlySubjects H nodes (some (.dict d)) ↔ ∀ n ∈ (H d).map Prod.fst, n ∈ nodes := by
      constructor
      · exact fun h => h d rfl
      · intro h d' e; cases e; exact h
    constructor
    · intro ho
      have hf : (parseItems nodes (H d) (H d)).2 = true := hflag.2 (honly.1 ho)
      have hkeys : Dict.keys (H.put d (parseItems nodes (H d) (H d)).1 d) = Dict.keys (H d) := by
        unfold Dicts.put
        rw [if_pos rfl]
        rcases hd : H d with _ | ⟨⟨k, v⟩, r⟩
        · rfl
        · rw [← hd]; exact (hp k).1
      have hnil : (Dict.keys (H.put d (parseItems nodes (H d) (H d)).1 d)).filter
          (fun n => n ∉ nodes) = [] := by
        rw [hkeys, List.filter_eq_nil_iff]
        intro n hn h
        exact of_decide_eq_true h (honly.1 ho n hn)
      have heq : handleSubject nodes H (.dict d) =
          (H.put d (parseItems nodes (H d) (H d)).1, .ok (.dict d)) := by
        unfold handleSubject
        simp only
        rw [if_neg (by rw [hf]; exact Bool.noConfusion), if_neg (fun h => h hnil)]
      rw [heq]
      refine ⟨_, rfl, ?_⟩
      intro H' n hE _
      have h1 : Dict.get? (H.put d (parseItems nodes (H d) (H d)).1 d) n =
          (Dict.get? (H d) n).map parseArg := by
        unfold Dicts.put
        rw [if_pos rfl]
        by_cases hm : n ∈ (H d).map Prod.fst
        · exact (hp n).2.2.1 hf hm
        · have hnone : Dict.get? (H d) n = none := Dict.get?_eq_none.2 hm
          rw [(hp n).2.2.2 hm, hnone]; rfl
      have h2 : Dict.get? (H' d) n = (Dict.get? (H d) n).map parseArg := by
        rcases hE.entry d n with e | e
        · rw [e]; exact h1
        · rw [e]
          show (Dict.get? (H.put d (parseItems nodes (H d) (H d)).1 d) n).map parseArg = _
          rw [h1, Option.map_map]
          congr 1
          exact funext fun a => parse_idem a
      unfold getSubject
      simp only
      rw [h2]
      cases Dict.get? (H d) n <;> rfl
    · intro ho
      have hf : (parseItems nodes (H d) (H d)).2 = false := by
        cases h : (parseItems nodes (H d) (H d)).2 with
        | false => rfl
        | true => exact absurd (honly.2 (hflag.1 h)) ho
      unfold handleSubject
      simp only
      rw [if_pos hf]

/-! ## The constructor -/

theorem Cls.kind_family (cls : Cls) : cls.kind = family cls := by cases cls <;> rfl

theorem nodesOk_iff (cls : Cls) (nodes : List α) : cls.nodesOk nodes = true ↔ RightNumber cls nodes := by
  cases nodes with
  | nil => cases cls <;> simp [Cls.nodesOk, Cls.single, RightNumber]
  | cons x xs => cases cls <;> simp [Cls.nodesOk, Cls.single, RightNumber]

/-- Option of the subjects with the default of the class filled in. -/
abbrev senderSubj (cls : Cls) (o : Opts) : Subj := o.subjectSenders.getD (.one (.op cls.subjectSenders))
/-- Option of the subjects with the default of the class filled in. -/
abbrev receiverSubj (cls : Cls) (o : Opts) : Subj :=
  o.subjectReceivers.getD (.one (.op cls.subjectReceivers))

theorem construct_evolves (cls : Cls) (nodes : List α) (o : Opts) {H : Dicts α} (hw : DictsWF H) :
    Evolves H (construct cls nodes o H).1 := by
  unfold construct
  split
  · exact .refl H
  · have h1 := handleSubject_evolves nodes hw (senderSubj cls o)
    have h2 := handleSubject_evolves nodes (h1.wf hw) (receiverSubj cls o)
    simp only
    split
    · exact h1
    · split
      · exact h1.trans h2
      · split
        · exact h1.trans h2
        · exact h1.trans h2

theorem construction_evolves (calls : List (NewCond α)) {H : Dicts α} (hw : DictsWF H) :
    Evolves H (construction H calls) := by
  induction calls generalizing H with
  | nil => exact .refl H
  | cons c cs ih =>
    have h1 := construct_evolves c.cls c.nodes c.opts hw
    exact h1.trans (ih (h1.wf hw))

theorem OnlySubjects.evolves {H H' : Dicts α} {nodes : List α} {s : Option Subj} (h : Evolves H H') :
    OnlySubjects H' nodes s ↔ OnlySubjects H nodes s := by
  unfold OnlySubjects
  constructor
  · intro ho d e n hn
    exact ho d e n (h.keys d ▸ hn)
  · intro ho d e n hn
    exact ho d e n (h.keys d ▸ hn)

theorem onlySubjects_getD {H : Dicts α} {nodes : List α} (s : Option Subj) (a : Arg) :
    OnlySubjects H nodes (some (s.getD (.one a))) ↔ OnlySubjects H nodes s := by
  cases s with
  | some s => exact Iff.rfl
  | none =>
    constructor
    · intro _ d e; cases e
    · intro _ d e; cases e

/-- What an accepted call stores. -/
theorem construct_ok (cls : Cls) (nodes : List α) (o : Opts) {H : Dicts α} (hw : DictsWF H)
    (hr : RightNumber cls nodes) (hh : HasOptions cls o)
    (hs : OnlySubjects H nodes o.subjectSenders) (ht : OnlySubjects H nodes o.subjectReceivers) :
    ∃ c, (construct cls nodes o H).2 = .ok c ∧ c.kind = family cls ∧ c.nodes = nodes ∧
      c.ownerSenders = parseArg (o.ownerSenders.getD (.op cls.ownerSenders)) ∧
      c.ownerReceivers = parseArg (o.ownerReceivers.getD (.op cls.ownerReceivers)) ∧
      (∀ H' n, Evolves (construct cls nodes o H).1 H' → n ∈ nodes →
        getSubject H' c.subjectSenders n = (getSubject H (senderSubj cls o) n).map parseArg ∧
        getSubject H' c.subjectReceivers n = (getSubject H (receiverSubj cls o) n).map parseArg) ∧
      c.reconnect = o.reconnect ∧ c.removeSelf = o.removeSelf ∧ c.prune = o.prune ∧
      c.ignoreConflicts = o.ignoreConflicts := by
  have h1 := handleSubject_evolves nodes hw (senderSubj cls o)
  have h2 := handleSubject_evolves nodes (h1.wf hw) (receiverSubj cls o)
  obtain ⟨ss, ess, gss⟩ := (handleSubject_ok nodes hw (senderSubj cls o)).1
    ((onlySubjects_getD _ _).2 hs)
  obtain ⟨sr, esr, gsr⟩ := (handleSubject_ok nodes (h1.wf hw) (receiverSubj cls o)).1
    ((onlySubjects_getD _ _).2 ((OnlySubjects.evolves h1).2 ht))
  have hcond : ¬ (cls = .withNode ∧ (nodes.length ≠ 1 ∨ o.ownerSenders ≠ none ∨
      o.subjectSenders ≠ none)) := by
    rintro ⟨e, h⟩
    subst e
    have := hh rfl
    rcases h with h | h | h
    · exact h hr
    · exact h this.1
    · exact h this.2
  unfold construct
  rw [if_neg hcond]
  simp only
  rw [ess]
  simp only
  rw [esr]
  simp only
  rw [if_neg (by rw [(nodesOk_iff cls nodes).2 hr]; exact Bool.noConfusion)]
  refine ⟨_, rfl, cls.kind_family, rfl, rfl, rfl, ?_, rfl, rfl, rfl, rfl⟩
  intro H' n hE hn
  refine ⟨gss H' n (h2.trans hE) hn, ?_⟩
  rw [gsr H' n hE hn]
  -- the second dict as the first call left it
  cases hsub : receiverSubj cls o with
  | one a => rfl
  | dict d =>
    unfold getSubject
    simp only
    rcases h1.entry d n with e | e
    · rw [e]
    · rw [e]
      cases Dict.get? (H d) n with
      | none => rfl
      | some a =>
        show Except.ok (parseArg (parseArg a)) = Except.ok (parseArg a)
        rw [parse_idem]

/-- A call that is not acceptable fails. -/
theorem construct_error (cls : Cls) (nodes : List α) (o : Opts) {H : Dicts α} (hw : DictsWF H)
    (h : ¬ (RightNumber cls nodes ∧ HasOptions cls o ∧ OnlySubjects H nodes o.subjectSenders ∧
      OnlySubjects H nodes o.subjectReceivers)) :
    ∃ e, (construct cls nodes o H).2 = .error e ∧
      (e = .conditionError ∨ (e = .typeError ∧ cls = .withNode)) := by
  have h1 := handleSubject_evolves nodes hw (senderSubj cls o)
  unfold construct
  split
  · rename_i hc
    exact ⟨_, rfl, .inr ⟨rfl, hc.1⟩⟩
  · rename_i hc
    simp only
    by_cases hs : OnlySubjects H nodes o.subjectSenders
    · obtain ⟨ss, ess, _⟩ := (handleSubject_ok nodes hw (senderSubj cls o)).1
        ((onlySubjects_getD _ _).2 hs)
      rw [ess]
      simp only
      by_cases ht : OnlySubjects H nodes o.subjectReceivers
      · obtain ⟨sr, esr, _⟩ := (handleSubject_ok nodes (h1.wf hw) (receiverSubj cls o)).1
          ((onlySubjects_getD _ _).2 ((OnlySubjects.evolves h1).2 ht))
        rw [esr]
        simp only
        have hn : ¬ RightNumber cls nodes := by
          intro hr
          refine h ⟨hr, ?_, hs, ht⟩
          intro e
          refine ⟨?_, ?_⟩
          · cases ho : o.ownerSenders with
            | none => rfl
            | some a => exact absurd ⟨e, .inr (.inl (by rw [ho]; exact fun h => (by cases h)))⟩ hc
          · cases ho : o.subjectSenders with
            | none => rfl
            | some a => exact absurd ⟨e, .inr (.inr (by rw [ho]; exact fun h => (by cases h)))⟩ hc
        have hf : cls.nodesOk nodes = false := by
          cases hb : cls.nodesOk nodes with
          | false => rfl
          | true => exact absurd ((nodesOk_iff cls nodes).1 hb) hn
        rw [if_pos hf]
        exact ⟨_, rfl, .inl rfl⟩
      · have esr := (handleSubject_ok nodes (h1.wf hw) (receiverSubj cls o)).2
          (fun h' => ht ((OnlySubjects.evolves h1).1 ((onlySubjects_getD _ _).1 h')))
        rw [esr]
        exact ⟨_, rfl, .inl rfl⟩
    · have ess := (handleSubject_ok nodes hw (senderSubj cls o)).2
        (fun h' => hs ((onlySubjects_getD _ _).1 h'))
      rw [ess]
      exact ⟨_, rfl, .inl rfl⟩

/-! ## Conditions that agree on their subjects -/

theorem foldl_congr' {β γ : Type _} {f g : γ → β → γ} {l : List β} (h : ∀ b ∈ l, ∀ a, f a b = g a b)
    (a : γ) : l.foldl f a = l.foldl g a := by
  induction l generalizing a with
  | nil => rfl
  | cons x xs ih =>
    rw [List.foldl_cons, List.foldl_cons, h x (List.mem_cons_self ..)]
    exact ih (fun b hb => h b (List.mem_cons_of_mem _ hb)) _

theorem OpCond.pruneLoop_congr (cyc : Graph α → List (List α)) (c : OpCond α) (f g : α → Oper)
    (owner : α) (base : Graph α) (fuel : Nat) : ∀ (prev : List (List α)) (s : HG α),
    ({ c with subjectSenders := f, subjectReceivers := g } : OpCond α).pruneLoop cyc owner base fuel prev s =
      c.pruneLoop cyc owner base fuel prev s := by
  induction fuel with
  | zero => intro _ _; rfl
  | succ k ih =>
    intro prev s
    unfold OpCond.pruneLoop
    simp only [ih]
    rfl

theorem OpCond.transform_congr (cyc : Graph α → List (List α)) (c : OpCond α) (f g : α → Oper)
    (hf : ∀ n ∈ c.nodes, f n = c.subjectSenders n) (hg : ∀ n ∈ c.nodes, g n = c.subjectReceivers n)
    (owner : α) (s : HG α) :
    ({ c with subjectSenders := f, subjectReceivers := g } : OpCond α).transform cyc owner s =
      c.transform cyc owner s := by
  have hop : ∀ t, ({ c with subjectSenders := f, subjectReceivers := g } : OpCond α).operate owner t =
      c.operate owner t := by
    intro t
    have h1 : ∀ h, ({ c with subjectSenders := f, subjectReceivers := g } : OpCond α).newSenders owner t h =
        c.newSenders owner t h := by
      intro h
      unfold OpCond.newSenders
      simp only
      exact foldl_congr' (fun n hn a => by rw [hf n hn]) _
    have h2 : ({ c with subjectSenders := f, subjectReceivers := g } : OpCond α).newReceivers owner t =
        c.newReceivers owner t := by
      unfold OpCond.newReceivers
      simp only
      exact foldl_congr' (fun n hn a => by rw [hg n hn]) _
    unfold OpCond.operate
    simp only [h1, h2]
  have hpost : ∀ base t, ({ c with subjectSenders := f, subjectReceivers := g } : OpCond α).postprocess cyc
      owner base t = c.postprocess cyc owner base t := by
    intro base t
    unfold OpCond.postprocess OpCond.pruneCycles
    simp only [OpCond.pruneLoop_congr]
    rfl
  unfold OpCond.transform
  have hpre : ({ c with subjectSenders := f, subjectReceivers := g } : OpCond α).preprocess owner s.clone =
    c.preprocess owner s.clone := rfl
  rw [hpre, hop]
  split
  · rename_i r hr
    rw [hpost]
    rfl
  · rfl

/-! ## Looking up the operations -/

theorem firstFailure_none {H : Dicts α} {ss sr : Subj} {ns : List α} :
    firstFailure H ss sr ns = none ↔ ∀ n ∈ ns, ∃ r, subjectOps H ss sr n = .ok r := by
  induction ns with
  | nil => exact ⟨fun _ _ h => (by cases h), fun _ => rfl⟩
  | cons n ns ih =>
    unfold firstFailure
    cases h : subjectOps H ss sr n with
    | error e =>
      refine ⟨fun h' => (by cases h'), fun h' => ?_⟩
      obtain ⟨r, hr⟩ := h' n (List.mem_cons_self ..)
      rw [h] at hr; cases hr
    | ok r =>
      simp only
      rw [ih]
      constructor
      · intro h' m hm
        rcases List.mem_cons.1 hm with e | hm
        · exact ⟨r, e ▸ h⟩
        · exact h' m hm
      · exact fun h' m hm => h' m (List.mem_cons_of_mem _ hm)

theorem subjectOps_ok {H : Dicts α} {ss sr : Subj} {n : α} {p q : Oper} :
    subjectOps H ss sr n = .ok (p, q) ↔
      getSubject H ss n = .ok (.op p) ∧ getSubject H sr n = .ok (.op q) := by
  unfold subjectOps
  cases h1 : getSubject H ss n with
  | error e => simp
  | ok a =>
    cases h2 : getSubject H sr n with
    | error e => simp
    | ok b =>
      cases a <;> cases b <;> simp [callable]

theorem gives_iff {H : Dicts α} {s : Subj} {n : α} {o : Oper} :
    GivesOper H s n o ↔ (getSubject H s n).map parseArg = .ok (.op o) := by
  cases s with
  | one a =>
    show Denotes a o ↔ Except.ok (parseArg a) = Except.ok (.op o)
    rw [denotes_iff]
    constructor
    · intro h; rw [h]
    · intro h; exact Except.ok.inj h
  | dict d =>
    unfold getSubject GivesOper
    simp only
    cases Dict.get? (H d) n with
    | none =>
      constructor
      · rintro ⟨_, h, _⟩; cases h
      · intro h; cases h
    | some a =>
      constructor
      · rintro ⟨b, h, hd⟩
        cases h
        show Except.ok (parseArg a) = _
        rw [parse_of_denotes hd]
      · intro h
        have h : Except.ok (parseArg a) = Except.ok (Arg.op o) := h
        exact ⟨a, rfl, denotes_of_parse (Except.ok.inj h)⟩

end GS

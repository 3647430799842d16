import Verif.Adopt
/-!
# `add_condition_set` with the set itself
-/

set_option linter.unusedSectionVars false

namespace GS
open Spec
variable {α κ W : Type _} [DecidableEq α] [DecidableEq κ]
namespace CSet

theorem structsFor_conditions (t : CSet α κ W) (n : α) :
    t.conditions.structsFor n = t.structsFor n := by
  unfold structsFor; rw [t.conditions_eq.2.1]

/-- The effect of a successful addition on the attributes. -/
theorem add_basic_eq {s s' : CSet α κ W} {m : α} {c : Cond α κ W} {r : Option Err}
    (h : s.add m (.basic c) = (s', r)) :
    r = none ∧ (∀ n, Dict.get? s'.basic n = if m = n then some c else Dict.get? s.basic n) ∧
      ∀ n, s'.structsFor n = s.structsFor n := by
  simp only [add, addBasic, Prod.mk.injEq] at h
  obtain ⟨rfl, rfl⟩ := h
  exact ⟨rfl, fun n => by simp only [Dict.get?_set], fun n => rfl⟩

theorem add_struct_eq {s s' : CSet α κ W} {m : α} {c : SCond α} {r : Option Err}
    (hm : m ∉ c.nodes) (h : s.add m (.structural c) = (s', r)) :
    r = none ∧ (∀ n, Dict.get? s'.basic n = Dict.get? s.basic n) ∧
      ∀ n, s'.structsFor n = if m = n then s.structsFor n ++ [c] else s.structsFor n := by
  simp only [add, addStructural, if_neg hm, Prod.mk.injEq] at h
  obtain ⟨rfl, rfl⟩ := h
  refine ⟨rfl, fun n => rfl, fun n => ?_⟩
  have := structsFor_set s m n (s.structsFor m ++ [c])
  refine Eq.trans (b := CSet.structsFor { s with structural := Dict.set s.structural m (s.structsFor m ++ [c]) } n) rfl ?_
  rw [this]
  by_cases e : m = n
  · subst e; rfl
  · rw [if_neg e, if_neg e]

/-- What keeps the loop going: owner `n` has several structural conditions and no basic one,
and is still to come or being dealt with. -/
structure Endless (n : α) (s : CSet α κ W) (pc : AddPC α κ W) : Prop where
  sane : s.Sane
  basic : Dict.get? s.basic n = none
  two : 2 ≤ (s.structsFor n).length
  pc : match pc with
    | .owners rest => n ∈ rest ∧ ∀ m ∈ rest, s.getItem m ≠ none
    | .live m i rest => (∀ k ∈ rest, s.getItem k ≠ none) ∧
        ((m = n ∧ i < (s.structsFor n).length) ∨ n ∈ rest)
    | .copied m cs rest => n ∈ rest ∧ m ≠ n ∧ (∀ c ∈ structsIn cs, m ∉ c.nodes) ∧
        ∀ k ∈ rest, s.getItem k ≠ none
    | .done => False
    | .raised _ => False

theorem getItem_isSome {s : CSet α κ W} (h : s.Sane) (m : α) :
    s.getItem m ≠ none ↔ (Dict.get? s.basic m ≠ none ∨ s.structsFor m ≠ []) := by
  rw [h.view m]
  cases Dict.get? s.basic m with
  | none =>
    match s.structsFor m with
    | [] => simp [shown]
    | [c] => simp [shown]
    | c :: d :: l => simp [shown]
  | some b =>
    match s.structsFor m with
    | [] => simp [shown]
    | c :: l => simp [shown]

/-- Additions keep every owner in the view. -/
theorem getItem_add {s s' : CSet α κ W} (h : s.Sane) {m : α} {c : AnyCond α κ W}
    {r : Option Err} (ha : s.add m c = (s', r)) {k : α} (hk : s.getItem k ≠ none) :
    s'.getItem k ≠ none := by
  have h' := h.add ha
  rw [getItem_isSome h] at hk
  rw [getItem_isSome h']
  cases c with
  | basic c =>
    obtain ⟨_, e1, e2⟩ := add_basic_eq ha
    rw [e1, e2]
    rcases hk with x | x
    · left; split
      · simp
      · exact x
    · exact .inr x
  | structural c =>
    by_cases hm : m ∈ c.nodes
    · simp only [add, addStructural, if_pos hm, Prod.mk.injEq] at ha
      rw [← ha.1]; exact hk
    · obtain ⟨_, e1, e2⟩ := add_struct_eq hm ha
      rw [e1, e2]
      rcases hk with x | x
      · exact .inl x
      · right; split
        · simp
        · exact x

theorem getItem_conditions (s : CSet α κ W) (k : α) : s.conditions.getItem k = s.getItem k := by
  unfold getItem; rw [s.conditions_eq.2.2.2]

theorem Endless.step {n : α} {s : CSet α κ W} {pc : AddPC α κ W} (h : Endless n s pc) :
    Endless n (selfStep s pc).1 (selfStep s pc).2 := by
  cases pc with
  | done => exact h.pc.elim
  | raised e => exact h.pc.elim
  | owners rest =>
    cases rest with
    | nil => have := h.pc.1; simp at this
    | cons m rest =>
      obtain ⟨hn, hk⟩ := h.pc
      have hv := h.sane.view m
      have hm := hk m (.head _)
      have hc := h.sane.conditions
      have cb : ∀ x, Dict.get? s.conditions.basic x = Dict.get? s.basic x := fun x => by
        rw [s.conditions_eq.1]
      have cs := s.structsFor_conditions
      have ck : ∀ k, s.conditions.getItem k = s.getItem k := s.getItem_conditions
      unfold selfStep
      simp only
      unfold getItem at hv hm
      rw [hv] at hm ⊢
      by_cases hmn : m = n
      · subst hmn
        have e2 := h.two
        rw [h.basic]
        match hl : s.structsFor m with
        | [] => simp [hl] at e2
        | [c] => simp [hl] at e2
        | c :: d :: l =>
          simp only [shown, cb, h.basic]
          exact ⟨hc, by rw [cb]; exact h.basic, by rw [cs]; exact e2,
            fun k hk' => by rw [ck]; exact hk k (.tail _ hk'), .inl ⟨rfl, by rw [cs, hl]; simp⟩⟩
      · have hn' : n ∈ rest := by
          rcases List.mem_cons.mp hn with e | e
          · exact absurd e.symm hmn
          · exact e
        -- a single condition
        have single : ∀ c : AnyCond α κ W, (∀ d ∈ structsIn [c], m ∉ d.nodes) →
            Endless n (s.conditions.addThen m c (.owners rest)).1
              (s.conditions.addThen m c (.owners rest)).2 := by
          intro c hl
          unfold addThen
          cases c with
          | basic b =>
            cases ha : s.conditions.add m (.basic b) with
            | mk s' r =>
              obtain ⟨rfl, e1, e2⟩ := add_basic_eq ha
              simp only
              exact ⟨hc.add ha, by rw [e1, if_neg hmn, cb]; exact h.basic,
                by rw [e2, cs]; exact h.two, hn', fun k hk' => getItem_add hc ha
                  (by rw [ck]; exact hk k (.tail _ hk'))⟩
          | structural d =>
            cases ha : s.conditions.add m (.structural d) with
            | mk s' r =>
              obtain ⟨rfl, e1, e2⟩ := add_struct_eq (hl d (by simp [structsIn])) ha
              simp only
              exact ⟨hc.add ha, by rw [e1, cb]; exact h.basic,
                by rw [e2, if_neg hmn, cs]; exact h.two, hn', fun k hk' => getItem_add hc ha
                  (by rw [ck]; exact hk k (.tail _ hk'))⟩
        cases hb : Dict.get? s.basic m with
        | none =>
          match hl : s.structsFor m with
          | [] => rw [hb, hl] at hm; simp [shown] at hm
          | [c] =>
            simp only [shown]
            exact single _ (fun d hd => by
              simp [structsIn] at hd; subst hd; exact h.sane.legit m d (by rw [hl]; simp))
          | c :: d :: l =>
            simp only [shown, cb, hb]
            exact ⟨hc, by rw [cb]; exact h.basic, by rw [cs]; exact h.two,
              fun k hk' => by rw [ck]; exact hk k (.tail _ hk'), .inr hn'⟩
        | some b =>
          match hl : s.structsFor m with
          | [] =>
            simp only [shown]
            exact single _ (by simp [structsIn])
          | c :: l =>
            simp only [shown, cb, hb]
            refine ⟨hc, by rw [cb]; exact h.basic, by rw [cs]; exact h.two, hn', hmn, ?_,
              fun k hk' => by rw [ck]; exact hk k (.tail _ hk')⟩
            intro d hd
            refine h.sane.legit m d ?_
            rw [hl]
            have := structsIn_map (κ := κ) (W := W) (c :: l)
            simp only [structsIn] at hd
            rw [this] at hd
            exact hd
  | live m i rest =>
    obtain ⟨hk, hp⟩ := h.pc
    unfold selfStep
    simp only
    cases hi : (s.structsFor m)[i]? with
    | none =>
      simp only
      rcases hp with ⟨rfl, hlt⟩ | hp
      · rw [List.getElem?_eq_none_iff] at hi; omega
      · exact ⟨h.sane, h.basic, h.two, hp, hk⟩
    | some c =>
      have hcm : c ∈ s.structsFor m := List.mem_of_getElem? hi
      have hlt : i < (s.structsFor m).length := by
        rcases Nat.lt_or_ge i (s.structsFor m).length with x | x
        · exact x
        · rw [List.getElem?_eq_none_iff.mpr x] at hi; simp at hi
      cases ha : s.add m (.structural c) with
      | mk s' r =>
        obtain ⟨rfl, e1, e2⟩ := add_struct_eq (h.sane.legit m c hcm) ha
        have et : s.addThen m (.structural c) (.live m (i + 1) rest) =
            (s', .live m (i + 1) rest) := by simp only [addThen, ha]
        simp only [et]
        refine ⟨h.sane.add ha, by rw [e1]; exact h.basic, ?_,
          fun k hk' => getItem_add h.sane ha (hk k hk'), ?_⟩
        · rw [e2]; split
          · have := h.two; simp; omega
          · exact h.two
        · rcases hp with ⟨rfl, _⟩ | hp
          · left; refine ⟨rfl, ?_⟩; rw [e2, if_pos rfl]; simp; exact hlt
          · exact .inr hp
  | copied m cs rest =>
    obtain ⟨hn, hmn, hl, hk⟩ := h.pc
    cases cs with
    | nil => exact ⟨h.sane, h.basic, h.two, hn, hk⟩
    | cons c cs =>
      unfold selfStep
      simp only [addThen]
      cases c with
      | basic b =>
        cases ha : s.add m (.basic b) with
        | mk s' r =>
          obtain ⟨rfl, e1, e2⟩ := add_basic_eq ha
          simp only
          exact ⟨h.sane.add ha, by rw [e1, if_neg hmn]; exact h.basic, by rw [e2]; exact h.two, hn,
            hmn, hl, fun k hk' => getItem_add h.sane ha (hk k hk')⟩
      | structural d =>
        cases ha : s.add m (.structural d) with
        | mk s' r =>
          obtain ⟨rfl, e1, e2⟩ := add_struct_eq (hl d (.head _)) ha
          simp only
          exact ⟨h.sane.add ha, by rw [e1]; exact h.basic,
            by rw [e2, if_neg hmn]; exact h.two, hn, hmn,
            fun c hc => hl c (.tail _ hc), fun k hk' => getItem_add h.sane ha (hk k hk')⟩

theorem Endless.steps {n : α} (k : Nat) : ∀ {s : CSet α κ W} {pc : AddPC α κ W},
    Endless n s pc → Endless n (selfSteps k (s, pc)).1 (selfSteps k (s, pc)).2 := by
  induction k with
  | zero => exact fun h => h
  | succ k ih => exact fun h => ih h.step

/-! ## When it ends -/

theorem selfSteps_add (j k : Nat) (p : CSet α κ W × AddPC α κ W) :
    selfSteps (j + k) p = selfSteps k (selfSteps j p) := by
  induction j generalizing p with
  | zero => simp [selfSteps]
  | succ j ih =>
    rw [Nat.succ_add]; simp only [selfSteps]; exact ih _

/-- The loop over the list that it appends to repeats the list. -/
theorem live_repeats {n : α} {l : List (SCond α)} (rest : List α) (h2 : 0 < l.length) (k : Nat) :
    ∀ {s : CSet α κ W}, s.Sane → s.structsFor n = l →
    ∃ t, selfSteps k (s, .live n 0 rest) = (t, .live n k rest) ∧ t.Sane ∧
      (t.structsFor n).length = l.length + k ∧
      ∀ i, i < l.length + k → (t.structsFor n)[i]? = l[i % l.length]? := by
  intro s hs hl
  induction k with
  | zero =>
    refine ⟨s, rfl, hs, by rw [hl]; rfl, fun i hi => ?_⟩
    rw [hl, Nat.mod_eq_of_lt (by omega)]
  | succ k ih =>
    obtain ⟨t, e, ht, hlen, hrep⟩ := ih
    have hk : k < l.length + k := by omega
    have hm : k % l.length < l.length := Nat.mod_lt _ h2
    have hc : (t.structsFor n)[k]? = some (l[k % l.length]) := by
      rw [hrep k hk, List.getElem?_eq_getElem hm]
    cases ha : t.add n (.structural l[k % l.length]) with
    | mk t' r =>
      obtain ⟨rfl, e1, e2⟩ := add_struct_eq (ht.legit n _ (List.mem_of_getElem? hc)) ha
      refine ⟨t', ?_, ht.add ha, by rw [e2, if_pos rfl]; simp [hlen]; omega, fun i hi => ?_⟩
      · rw [selfSteps_add k 1, e]
        simp only [selfSteps, selfStep, hc, addThen, ha]
      · rw [e2, if_pos rfl]
        rcases Nat.lt_or_ge i (l.length + k) with h | h
        · rw [List.getElem?_append_left (by omega)]; exact hrep i h
        · have : i = l.length + k := by omega
          subst this
          rw [List.getElem?_append_right (by omega), hlen, Nat.sub_self, Nat.add_mod_left,
            List.getElem?_eq_getElem hm]; rfl

/-- The structural conditions of a list, added one after the other. -/
theorem addAll_structs (m : α) (l : List (SCond α)) (hl : ∀ c ∈ l, m ∉ c.nodes) :
    ∀ {s s' : CSet α κ W} {r : Option Err}, s.addAll m (l.map .structural) = (s', r) →
      r = none ∧ (∀ n, Dict.get? s'.basic n = Dict.get? s.basic n) ∧
      ∀ n, s'.structsFor n = if m = n then s.structsFor n ++ l else s.structsFor n := by
  induction l with
  | nil =>
    intro s s' r h
    simp only [List.map_nil, addAll, Prod.mk.injEq] at h
    obtain ⟨rfl, rfl⟩ := h
    exact ⟨rfl, fun _ => rfl, fun n => by simp⟩
  | cons c l ih =>
    intro s s' r h
    simp only [List.map_cons, addAll] at h
    cases ha : s.add m (.structural c) with
    | mk s1 r1 =>
      obtain ⟨rfl, e1, e2⟩ := add_struct_eq (hl c (.head _)) ha
      rw [ha] at h
      simp only at h
      obtain ⟨rfl, f1, f2⟩ := ih (fun d hd => hl d (.tail _ hd)) h
      refine ⟨rfl, fun n => by rw [f1, e1], fun n => ?_⟩
      rw [f2, e2]
      by_cases e : m = n
      · simp [e]
      · simp [e]

/-- The loop over a list that does not change is `addAll`. -/
theorem copied_steps (m : α) (cs : List (AnyCond α κ W)) (rest : List α) :
    ∀ {s s' : CSet α κ W}, s.addAll m cs = (s', none) →
      selfSteps (cs.length + 1) (s, .copied m cs rest) = (s', .owners rest) := by
  induction cs with
  | nil =>
    intro s s' h
    simp only [addAll, Prod.mk.injEq, and_true] at h
    subst h; rfl
  | cons c cs ih =>
    intro s s' h
    unfold addAll at h
    split at h
    · simp at h
    · next s1 h1 =>
      simp only [List.length_cons, selfSteps, selfStep, addThen, h1]
      exact ih h

/-- From an owner to the next. -/
theorem owner_steps {s : CSet α κ W} (h : s.Sane) {m : α} {rest : List α}
    (hm : s.getItem m ≠ none)
    (he : Dict.get? s.basic m ≠ none ∨ (s.structsFor m).length ≤ 1) :
    ∃ k s', selfSteps k (s, .owners (m :: rest)) = (s', .owners rest) ∧ s'.Sane ∧
      (∀ n, Dict.get? s'.basic n = Dict.get? s.basic n) ∧
      ∀ n, s'.structsFor n = if m = n then s.structsFor n ++ s.structsFor n else s.structsFor n := by
  have hv := h.view m
  have hc := h.conditions
  have cb : ∀ x, Dict.get? s.conditions.basic x = Dict.get? s.basic x := fun x => by
    rw [s.conditions_eq.1]
  have cs := s.structsFor_conditions
  have hm' := hm
  unfold getItem at hv hm'
  rw [hv] at hm'
  cases hb : Dict.get? s.basic m with
  | none =>
    match hl : s.structsFor m with
    | [] => rw [hb, hl] at hm'; simp [shown] at hm'
    | [c] =>
      cases ha : s.conditions.add m (.structural c) with
      | mk s' r =>
        obtain ⟨rfl, e1, e2⟩ := add_struct_eq (h.legit m c (by rw [hl]; simp)) ha
        refine ⟨1, s', ?_, hc.add ha, fun n => by rw [e1, cb], fun n => ?_⟩
        · simp only [selfSteps, selfStep, hv, hb, hl, shown, addThen, ha]
        · rw [e2, cs]
          by_cases e : m = n
          · subst e; rw [if_pos rfl, if_pos rfl, hl]
          · rw [if_neg e, if_neg e]
    | c :: d :: l =>
      rcases he with x | x
      · exact absurd hb x
      · rw [hl] at x; simp at x
  | some b =>
    match hl : s.structsFor m with
    | [] =>
      cases ha : s.conditions.add m (.basic b) with
      | mk s' r =>
        obtain ⟨rfl, e1, e2⟩ := add_basic_eq ha
        refine ⟨1, s', ?_, hc.add ha, fun n => ?_, fun n => ?_⟩
        · simp only [selfSteps, selfStep, hv, hb, hl, shown, addThen, ha]
        · rw [e1, cb]
          by_cases e : m = n
          · subst e; rw [if_pos rfl, hb]
          · rw [if_neg e]
        · rw [e2, cs]
          by_cases e : m = n
          · subst e; rw [if_pos rfl, hl]; rfl
          · rw [if_neg e]
    | c :: l =>
      cases ha : s.conditions.add m (.basic b) with
      | mk s1 r1 =>
        obtain ⟨rfl, e1, e2⟩ := add_basic_eq ha
        cases ha' : s1.addAll m ((c :: l).map .structural) with
        | mk s' r =>
          obtain ⟨rfl, f1, f2⟩ := addAll_structs m (c :: l)
            (fun d hd => h.legit m d (by rw [hl]; exact hd)) ha'
          have hall : s.conditions.addAll m (.basic b :: (c :: l).map .structural) = (s', none) := by
            simp only [addAll, ha]; exact ha'
          refine ⟨1 + ((.basic b :: (c :: l).map .structural : List (AnyCond α κ W)).length + 1),
            s', ?_, (hc.add ha).addAll m _ ha', fun n => ?_, fun n => ?_⟩
          · rw [selfSteps_add]
            have : selfSteps 1 (s, .owners (m :: rest)) =
                (s.conditions, .copied m (.basic b :: (c :: l).map .structural) rest) := by
              simp only [selfSteps, selfStep, hv, hb, hl, shown, cb]
            rw [this]
            exact copied_steps m _ rest hall
          · rw [f1, e1, cb]
            by_cases e : m = n
            · subst e; rw [if_pos rfl, hb]
            · rw [if_neg e]
          · rw [f2, e2, cs]
            by_cases e : m = n
            · subst e; rw [if_pos rfl, if_pos rfl, hl]
            · rw [if_neg e, if_neg e]

theorem owners_steps (rest : List α) : ∀ {s : CSet α κ W}, s.Sane → rest.Nodup →
    (∀ m ∈ rest, s.getItem m ≠ none) →
    (∀ m ∈ rest, Dict.get? s.basic m ≠ none ∨ (s.structsFor m).length ≤ 1) →
    ∃ k s', selfSteps k (s, .owners rest) = (s', .done) ∧ s'.Sane ∧
      (∀ n, Dict.get? s'.basic n = Dict.get? s.basic n) ∧
      ∀ n, s'.structsFor n =
        if n ∈ rest then s.structsFor n ++ s.structsFor n else s.structsFor n := by
  induction rest with
  | nil => exact fun h _ _ _ => ⟨1, _, rfl, h, fun _ => rfl, fun _ => by simp⟩
  | cons m rest ih =>
    intro s h hnd hk he
    rw [List.nodup_cons] at hnd
    obtain ⟨k1, s1, e1, h1, b1, t1⟩ := owner_steps h (rest := rest) (hk m (.head _)) (he m (.head _))
    have hne : ∀ x ∈ rest, m ≠ x := fun x hx e => hnd.1 (e ▸ hx)
    obtain ⟨k2, s2, e2, h2, b2, t2⟩ := ih h1 hnd.2
      (fun x hx => by
        have := (getItem_isSome h x).mp (hk x (.tail _ hx))
        rw [getItem_isSome h1, b1, t1, if_neg (hne x hx)]; exact this)
      (fun x hx => by rw [b1, t1, if_neg (hne x hx)]; exact he x (.tail _ hx))
    refine ⟨k1 + k2, s2, by rw [selfSteps_add, e1, e2], h2, fun n => by rw [b2, b1], fun n => ?_⟩
    rw [t2]
    by_cases hn : n ∈ rest
    · rw [if_pos hn, t1, if_neg (hne n hn), if_pos (.tail _ hn)]
    · rw [if_neg hn, t1]
      by_cases e : m = n
      · subst e; rw [if_pos rfl, if_pos (.head _)]
      · rw [if_neg e, if_neg (fun x => by
          rcases List.mem_cons.mp x with y | y
          · exact e y.symm
          · exact hn y)]

end CSet
end GS

import Verif.Spec.Alias

/-!
# Lemmas about names and their replacement
-/

set_option linter.unusedSectionVars false

namespace GS
namespace Str

theorem occurs_iff (sub s : Str) : occurs sub s = true ↔ sub <:+: s := by
  induction s with
  | nil => cases sub <;> simp [occurs]
  | cons c cs ih =>
    simp only [occurs, Bool.or_eq_true, ih, List.isPrefixOf_iff_prefix, List.infix_cons_iff]

theorem replaceFrom_skip (old new : Str) (k : Nat) (s : Str) :
    replaceFrom old new k s = replaceFrom old new 0 (s.drop k) := by
  induction s generalizing k with
  | nil => cases k <;> simp [replaceFrom]
  | cons c cs ih =>
    cases k with
    | zero => rfl
    | succ k => simp only [replaceFrom, List.drop_succ_cons, ih k]

theorem replace_prefix {old : Str} (h0 : old ≠ []) (new v : Str) :
    replace old new (old ++ v) = new ++ replace old new v := by
  cases old with
  | nil => exact absurd rfl h0
  | cons c cs =>
    have hp : (c :: cs).isPrefixOf (c :: (cs ++ v)) = true := by
      rw [List.isPrefixOf_iff_prefix]; exact ⟨v, by simp⟩
    simp only [replace, List.cons_append, replaceFrom, hp, if_true, List.length_cons,
      Nat.add_sub_cancel]
    rw [replaceFrom_skip]
    simp

theorem replace_cons {old : Str} (new : Str) {c : Char} {cs : Str}
    (h : ¬ old <+: c :: cs) : replace old new (c :: cs) = c :: replace old new cs := by
  have hp : ¬ old.isPrefixOf (c :: cs) = true := by rwa [List.isPrefixOf_iff_prefix]
  simp only [replace, replaceFrom, hp]
  simp

theorem not_infix_dropLast {old : Str} (h0 : old ≠ []) : ¬ old <:+: old.dropLast := by
  intro h
  have := h.length_le
  have hl : 0 < old.length := List.length_pos_iff.2 h0
  simp at this
  omega

/-- The scan replaces every occurrence. -/
theorem replace_spec {old : Str} (h0 : old ≠ []) (new : Str) :
    ∀ (n : Nat) (s : Str), s.length ≤ n → Spec.Replaces old new s (replace old new s) := by
  intro n
  induction n with
  | zero =>
    intro s hs
    have : s = [] := List.length_eq_zero_iff.1 (by omega)
    subst this
    exact .done _ (by simpa using h0)
  | succ n ih =>
    intro s hs
    cases s with
    | nil => exact .done _ (by simpa using h0)
    | cons c cs =>
      by_cases hp : old <+: c :: cs
      · obtain ⟨v, hv⟩ := hp
        rw [← hv, replace_prefix h0]
        have hl : 0 < old.length := List.length_pos_iff.2 h0
        have hlen : v.length ≤ n := by
          have := congrArg List.length hv
          simp at this hs
          omega
        exact .next [] v _ (by simpa using not_infix_dropLast h0) (ih v hlen)
      · rw [replace_cons new hp]
        have := ih cs (by simp at hs; omega)
        generalize replace old new cs = r at this
        cases this with
        | done _ hn =>
          refine .done _ ?_
          rw [List.infix_cons_iff]
          exact fun h => h.elim hp hn
        | next u v v' hu hv =>
          have : Spec.Replaces old new ((c :: u) ++ old ++ v) ((c :: u) ++ new ++ v') := by
            refine .next _ _ _ ?_ hv
            have hne : u ++ old ≠ [] := by simp [h0]
            rw [List.cons_append, List.dropLast_cons_of_ne_nil hne, List.infix_cons_iff]
            rintro (h | h)
            · apply hp
              refine h.trans ?_
              have h2 : (u ++ old).dropLast <+: u ++ old ++ v :=
                (List.dropLast_prefix _).trans ⟨v, rfl⟩
              obtain ⟨w, hw⟩ := h2
              exact ⟨w, by rw [← hw]; rfl⟩
            · exact hu h
          exact this

theorem replaces {old : Str} (h0 : old ≠ []) (new s : Str) :
    Spec.Replaces old new s (replace old new s) := replace_spec h0 new _ s (Nat.le_refl _)

/-- What the specification allows is what the scan gives. -/
theorem _root_.GS.Spec.Replaces.eq {old new s z : Str} (h0 : old ≠ [])
    (h : Spec.Replaces old new s z) : z = replace old new s := by
  induction h with
  | done s hn =>
    induction s with
    | nil => rfl
    | cons c cs ih =>
      rw [List.infix_cons_iff] at hn
      rw [replace_cons new fun h => hn (.inl h), ← ih fun h => hn (.inr h)]
  | next u v v' hu _ ih =>
    subst ih
    induction u with
    | nil => simp [replace_prefix h0]
    | cons c u ihu =>
      have hne : u ++ old ≠ [] := by simp [h0]
      rw [List.cons_append, List.dropLast_cons_of_ne_nil hne, List.infix_cons_iff] at hu
      have hp : ¬ old <+: c :: (u ++ old ++ v) := by
        intro h
        apply hu
        left
        have h2 : c :: (u ++ old).dropLast <+: c :: (u ++ old ++ v) := by
          rw [List.cons_prefix_cons]
          exact ⟨rfl, (List.dropLast_prefix _).trans ⟨v, rfl⟩⟩
        refine List.prefix_of_prefix_length_le h h2 ?_
        have hl : 0 < old.length := List.length_pos_iff.2 h0
        simp
        omega
      have := ihu fun h => hu (.inr h)
      rw [List.cons_append, List.cons_append, List.cons_append, List.cons_append,
        replace_cons new hp, ← this]

theorem infix_replace {old : Str} (h0 : old ≠ []) (new : Str) {s : Str} (h : old <:+: s) :
    new <:+: replace old new s := by
  have := replaces h0 new s
  generalize replace old new s = r at this
  cases this with
  | done _ hn => exact absurd h hn
  | next u v v' _ _ => exact ⟨u, v', by simp⟩

theorem splitFrom_word (w : Str) (hw : '_' ∉ w) (cur rest : Str) :
    splitFrom cur (w ++ '_' :: rest) = (cur ++ w) :: splitFrom [] rest ∧
      splitFrom cur w = [cur ++ w] := by
  induction w generalizing cur with
  | nil => simp [splitFrom]
  | cons c w ih =>
    simp only [List.mem_cons, not_or] at hw
    have hc : c ≠ '_' := fun h => hw.1 h.symm
    have := ih hw.2 (cur ++ [c])
    simp only [List.cons_append, splitFrom, if_neg hc]
    simpa using this

theorem split_intercalate (ws : List Str) (h0 : ws ≠ []) (hw : ∀ w ∈ ws, '_' ∉ w) :
    splitFrom [] (List.intercalate ['_'] ws) = ws := by
  induction ws with
  | nil => exact absurd rfl h0
  | cons w ws ih =>
    cases ws with
    | nil => simpa [List.intercalate] using (splitFrom_word w (hw w (by simp)) [] []).2
    | cons w' ws =>
      have e : List.intercalate ['_'] (w :: w' :: ws)
          = w ++ '_' :: List.intercalate ['_'] (w' :: ws) := by
        simp [List.intercalate]
      rw [e, (splitFrom_word w (hw w (by simp)) [] _).1, ih (by simp) fun x hx =>
        hw x (List.mem_cons_of_mem _ hx)]
      rfl

theorem capitals_eq (ws : List Str) (h : ∀ w ∈ ws, w ≠ []) :
    capitals ws = .ok (ws.map Spec.capitalised).flatten := by
  induction ws with
  | nil => rfl
  | cons w ws ih =>
    have hw := h w (by simp)
    cases w with
    | nil => exact absurd rfl hw
    | cons c cs =>
      simp only [capitals, capital, ih fun x hx => h x (List.mem_cons_of_mem _ hx)]
      rfl

/-- The code computes the class name that the specification describes. -/
theorem _root_.GS.Spec.ClassName.eq {name seg : Str} (h : Spec.ClassName name seg) :
    classStr name = .ok seg ∧ seg ≠ [] := by
  obtain ⟨ws, h0, hw, rfl, rfl⟩ := h
  refine ⟨?_, ?_⟩
  · rw [classStr, split_intercalate ws h0 fun w h => (hw w h).2,
      capitals_eq ws fun w h => (hw w h).1]
  · cases ws with
    | nil => exact absurd rfl h0
    | cons w ws =>
      cases w with
      | nil => exact absurd rfl (hw [] (by simp)).1
      | cons c cs => simp [Spec.capitalised]

end Str

theorem TimeScale.className_ne (ts : TimeScale) : ts.className ≠ [] := by
  cases ts <;> decide

theorem TimeScale.className_spec (ts : TimeScale) : Spec.ClassName ts.name ts.className := by
  cases ts
  · exact ⟨["CONSIDERATION".toList, "SET".toList, "EXECUTION".toList], by decide, by decide,
      by decide, by decide⟩
  · exact ⟨["PASS".toList], by decide, by decide, by decide, by decide⟩
  · exact ⟨["ENVIRONMENT".toList, "STATE".toList, "UPDATE".toList], by decide, by decide,
      by decide, by decide⟩
  · exact ⟨["ENVIRONMENT".toList, "SEQUENCE".toList], by decide, by decide, by decide,
      by decide⟩
  · exact ⟨["LIFE".toList], by decide, by decide, by decide, by decide⟩

theorem TimeScale.mem_all (ts : TimeScale) : ts ∈ TimeScale.all := by cases ts <;> decide

end GS

import Verif.Spec.Twins
import Verif.RestateRule
import Verif.Restate
import Verif.ReferenceFit
import Verif.GoesFirst
/-!
# Nodes with the same condition in the reference scheduler
-/

set_option linter.unusedSectionVars false

namespace GS
open Spec
variable {α κ W : Type _} [DecidableEq α] [DecidableEq κ]

section
variable {R : α → Past α → Bool} {l : List α} {p : Past α} {n m : α}

theorem goThrough_never (hR : ∀ X, (∀ x ∈ X, x ∈ l) → n ∉ X → R n { p with next := X } = false) :
    ∀ (ns X : List α), (∀ x ∈ ns, x ∈ l) → (∀ x ∈ X, x ∈ l) → n ∉ X →
      ∃ Y, goThrough R ns { p with next := X } = { p with next := Y } ∧ (∀ x ∈ Y, x ∈ l) ∧ n ∉ Y
  | [], X, _, hX, hn => ⟨X, rfl, hX, hn⟩
  | k :: ns, X, hns, hX, hn => by
    simp only [goThrough]
    have hns' : ∀ x ∈ ns, x ∈ l := fun x hx => hns x (List.mem_cons_of_mem _ hx)
    by_cases h1 : k ∈ X
    · rw [if_pos h1]; exact goThrough_never hR ns X hns' hX hn
    · rw [if_neg h1]
      by_cases h2 : R k { p with next := X } = true
      · rw [if_pos h2]
        refine goThrough_never hR ns (X ++ [k]) hns' ?_ ?_
        · intro x hx
          rcases List.mem_append.1 hx with hx | hx
          · exact hX x hx
          · rw [List.mem_singleton] at hx; exact hx ▸ hns k List.mem_cons_self
        · intro hx
          rcases List.mem_append.1 hx with hx | hx
          · exact hn hx
          · rw [List.mem_singleton] at hx
            subst hx
            rw [hR X hX hn] at h2; cases h2
      · rw [if_neg h2]; exact goThrough_never hR ns X hns' hX hn

theorem goRound_never (hR : ∀ X, (∀ x ∈ X, x ∈ l) → n ∉ X → R n { p with next := X } = false) :
    ∀ (k : Nat) (X : List α), (∀ x ∈ X, x ∈ l) → n ∉ X →
      n ∉ (goRound R l k { p with next := X }).next
  | 0, X, _, hn => hn
  | k + 1, X, hX, hn => by
    obtain ⟨Y, e, hY, hnY⟩ := goThrough_never hR l X (fun _ h => h) hX hn
    simp only [goRound]
    rw [e]
    exact goRound_never hR k Y hY hnY

/-- A rule that the choice of other nodes of the set does not affect is decided at the beginning. -/
theorem choice_decided (hp : p.next = []) (hn : n ∈ l) (b : Bool)
    (hR : ∀ X, (∀ x ∈ X, x ∈ l) → n ∉ X → R n { p with next := X } = b) :
    n ∈ choice R l p ↔ b = true := by
  cases b with
  | false =>
    have h := goRound_never hR (l.length + 1) [] (by simp) (by simp)
    have e : { p with next := [] } = p := by rw [← hp]
    rw [e] at h
    simp only [Bool.false_eq_true, iff_false]
    exact h
  | true =>
    simp only [iff_true]
    refine Classical.byContradiction fun h => ?_
    have k := fix_rule (choice_fix (R := R) (l := l) hp) n hn h
    rw [hR _ (choice_part hp).2 h] at k
    cases k

/-- A list of sets in which `n` and `m` are together, and with nodes of `l` only. -/
def TogetherIn (l : List α) (n m : α) (S : List (List α)) : Prop :=
  ∀ X ∈ S, X.Nodup ∧ (n ∈ X ↔ m ∈ X) ∧ (n ∈ X → ∀ x ∈ X, x ∈ l)

theorem TogetherIn.left {S : List (List α)} (h : TogetherIn l n m S) : TogetherIn l n n S :=
  fun X hX => ⟨(h X hX).1, Iff.rfl, (h X hX).2.2⟩

theorem TogetherIn.count {S : List (List α)} (h : TogetherIn l n m S) :
    S.flatten.count n = S.flatten.count m := by
  induction S with
  | nil => rfl
  | cons X S ih =>
    obtain ⟨h1, h2, _⟩ := h X List.mem_cons_self
    have ih := ih fun Y hY => h Y (List.mem_cons_of_mem _ hY)
    simp only [List.flatten_cons, List.count_append, ih]
    congr 1
    by_cases hn : n ∈ X
    · rw [h1.count, h1.count, if_pos hn, if_pos (h2.1 hn)]
    · rw [List.count_eq_zero_of_not_mem hn, List.count_eq_zero_of_not_mem (fun hm => hn (h2.2 hm))]

theorem TogetherIn.since {d : α} (hd : d ∉ l) {S : List (List α)} (h : TogetherIn l n m S) :
    (since n S.flatten).count d = (since m S.flatten).count d := by
  induction S using snocInd with
  | h0 => rfl
  | h1 S X ih =>
    have ih := ih fun Y hY => h Y (List.mem_append_left _ hY)
    obtain ⟨_, h2, h3⟩ := h X (by simp)
    simp only [List.flatten_append, List.flatten_cons, List.flatten_nil, List.append_nil]
    by_cases hn : n ∈ X
    · have hm := h2.1 hn
      rw [List.count_eq_zero_of_not_mem, List.count_eq_zero_of_not_mem]
      · exact fun k => hd (h3 hn d (since_suffix_part X _ hm d k))
      · exact fun k => hd (h3 hn d (since_suffix_part X _ hn d k))
    · have hm : m ∉ X := fun hm => hn (h2.2 hm)
      rw [since_append_not_mem X _ hn, since_append_not_mem X _ hm, List.count_append, List.count_append,
        ih]

theorem callsSince_together {d : α} (hd : d ∉ l) (hn : n ∈ l) (hm : m ∈ l) (h : TogetherIn l n m p.inRun)
    {X : List α} (hX : ∀ x ∈ X, x ∈ l) (hnX : n ∉ X) :
    ({ p with next := X } : Past α).callsSince n d = ({ p with next := [] } : Past α).callsSince m d := by
  have e1 : d ≠ n := fun e => hd (e ▸ hn)
  have e2 : d ≠ m := fun e => hd (e ▸ hm)
  unfold Past.callsSince
  rw [if_neg (fun k => e1 k.1), if_neg (fun k => e2 k.1)]
  show (Spec.since n (p.inRun.flatten ++ X)).count d + 0 = (Spec.since m (p.inRun.flatten ++ [])).count d + 0
  rw [since_append_not_mem X _ hnX, List.count_append, List.count_eq_zero_of_not_mem (fun k => hd (hX d k)),
    List.append_nil, h.since hd]

theorem calls_outside {d : α} (hd : d ∉ l) {X : List α} (hX : ∀ x ∈ X, x ∈ l) (ts : TimeScale) :
    ({ p with next := X } : Past α).calls ts d = ({ p with next := [] } : Past α).calls ts d := by
  have h0 : X.count d = 0 := List.count_eq_zero_of_not_mem fun k => hd (hX d k)
  cases ts <;> simp [Past.calls, Past.inRun, Past.all, List.count_append, h0]
end

section
variable {l : List α} {p : Past α} {n m : α} {e : Around α κ W}

theorem holdsLeaf_together (hn : n ∈ l) (hm : m ∈ l) (he : e.place n = e.place m)
    (h : TogetherIn l n m p.inRun) {X : List α} (hX : ∀ x ∈ X, x ∈ l) (hnX : n ∉ X) (k : Leaf α κ W)
    (hk : OutsideLeaf l k) :
    holdsLeaf e (some n) { p with next := X } k = holdsLeaf e (some m) { p with next := [] } k := by
  have e1 : ({ p with next := X } : Past α).inRun = ({ p with next := [] } : Past α).inRun := rfl
  have e2 : ({ p with next := X } : Past α).sets = ({ p with next := [] } : Past α).sets := by
    funext ts; cases ts <;> rfl
  have e3 : ({ p with next := X } : Past α).passes = ({ p with next := [] } : Past α).passes := by
    funext ts; cases ts <;> rfl
  have e4 : ({ p with next := X } : Past α).justRan = ({ p with next := [] } : Past α).justRan := rfl
  cases k with
  | beforeNCalls d _ _ | atNCalls d _ _ | afterCall d _ _ | afterNCalls d _ _ =>
    simp only [holdsLeaf, calls_outside (p := p) hk hX]
  | everyNCalls d _ => simp only [holdsLeaf, callsSince_together hk hn hm h hX hnX]
  | afterNCallsCombined ds o ts =>
    cases o with
    | none => rfl
    | some k =>
      have : ds.map (({ p with next := X } : Past α).calls ts) =
          ds.map (({ p with next := [] } : Past α).calls ts) :=
        List.map_congr_left fun d hd => calls_outside (hk d hd) hX ts
      simp only [holdsLeaf, this]
  | allHaveRun ds ts =>
    simp only [holdsLeaf, if_neg hk.1]
    have : (∀ d ∈ ds, 1 ≤ ({ p with next := X } : Past α).calls ts d) ↔
        ∀ d ∈ ds, 1 ≤ ({ p with next := [] } : Past α).calls ts d := by
      constructor <;> intro g d hd <;> have := g d hd <;>
        rw [calls_outside (hk.2 d hd) hX] at * <;> exact this
    exact decide_eq_decide.2 this
  | timeInterval r b f si ei =>
    cases b <;> simp only [holdsLeaf, he, e1]
  | _ => first | rfl | simp only [holdsLeaf, e1, e2, e3, e4]

mutual
theorem holds_together (hn : n ∈ l) (hm : m ∈ l) (he : e.place n = e.place m)
    (h : TogetherIn l n m p.inRun) {X : List α} (hX : ∀ x ∈ X, x ∈ l) (hnX : n ∉ X) :
    ∀ c : Cond α κ W, Outside l c →
      holds e (some n) { p with next := X } c = holds e (some m) { p with next := [] } c
  | .leaf _ k, hk => holdsLeaf_together hn hm he h hX hnX k hk
  | .whileNot _ _, _ => rfl
  | .nwhen _ _ _, _ => rfl
  | .all _ cs, hk => (holdsAll_together hn hm he h hX hnX cs hk).1
  | .any _ cs, hk => (holdsAll_together hn hm he h hX hnX cs hk).2
  | .not _ c, hk => by simp only [holds, holds_together hn hm he h hX hnX c hk]
theorem holdsAll_together (hn : n ∈ l) (hm : m ∈ l) (he : e.place n = e.place m)
    (h : TogetherIn l n m p.inRun) {X : List α} (hX : ∀ x ∈ X, x ∈ l) (hnX : n ∉ X) :
    ∀ cs : List (Cond α κ W), OutsideAll l cs →
      holdsAll e (some n) { p with next := X } cs = holdsAll e (some m) { p with next := [] } cs ∧
      holdsAny e (some n) { p with next := X } cs = holdsAny e (some m) { p with next := [] } cs
  | [], _ => ⟨rfl, rfl⟩
  | c :: cs, hk => by
    simp only [holdsAll, holdsAny, holds_together hn hm he h hX hnX c hk.1,
      (holdsAll_together hn hm he h hX hnX cs hk.2).1, (holdsAll_together hn hm he h hX hnX cs hk.2).2,
      and_self]
end

mutual
theorem outside_bare (l : List α) : ∀ c : Cond α κ W, Outside l (bare c) ↔ Outside l c
  | .leaf _ _ | .whileNot _ _ => Iff.rfl
  | .nwhen _ c _ => by simp only [bare, Outside]; exact outside_bare l c
  | .all _ cs => by simp only [bare, Outside]; exact outside_bares l cs
  | .any _ cs => by simp only [bare, Outside]; exact outside_bares l cs
  | .not _ c => by simp only [bare, Outside]; exact outside_bare l c
theorem outside_bares (l : List α) : ∀ cs : List (Cond α κ W), OutsideAll l (bares cs) ↔ OutsideAll l cs
  | [] => Iff.rfl
  | c :: cs => by simp only [bares, OutsideAll, outside_bare l c, outside_bares l cs]
end

theorem Spec.AlikeNodes.symm {s : Sys α κ W} (h : AlikeNodes s l n m) : AlikeNodes s l m n := by
  rcases h with ⟨c, d, h1, h2, h3, h4⟩ | ⟨h1, h2, ds, ds', h3, h4, h5, h6⟩
  · exact .inl ⟨d, c, h2, h1, h3.symm, by rw [← outside_bare, ← h3, outside_bare]; exact h4⟩
  · exact .inr ⟨h2, h1, ds', ds, h4, h3, fun x => (h5 x).symm, fun d hd => h6 d ((h5 d).2 hd)⟩

theorem Spec.AlikeNodes.left {s : Sys α κ W} (h : AlikeNodes s l n m) : AlikeNodes s l n n := by
  rcases h with ⟨c, d, h1, h2, h3, h4⟩ | ⟨h1, h2, ds, ds', h3, h4, h5, h6⟩
  · exact .inl ⟨c, c, h1, h1, rfl, h4⟩
  · exact .inr ⟨h1, h1, ds, ds, h3, h3, fun x => Iff.rfl, h6⟩

/-- The rules of two such nodes agree. -/
theorem rule_together {s : Sys α κ W} (ha : AlikeNodes s l n m) (hn : n ∈ l) (hm : m ∈ l)
    (he : e.place n = e.place m) (h : TogetherIn l n m p.inRun)
    (hr : p.runs.flatten.flatten.flatten.count n = p.runs.flatten.flatten.flatten.count m)
    {X : List α} (hX : ∀ x ∈ X, x ∈ l) (hnX : n ∉ X) :
    rule s e n { p with next := X } = rule s e m { p with next := [] } := by
  rcases ha with ⟨c, d, h1, h2, h3, h4⟩ | ⟨h1, h2, ds, ds', h3, h4, h5, h6⟩
  · have hk : holds e (some n) { p with next := X } (within c) =
        holds e (some m) { p with next := [] } (within d) := by
      have ho : Outside l (within c) := by cases c <;> exact h4
      rw [holds_together hn hm he h hX hnX _ ho]
      exact holds_of_bare _ _ _ (bare_within h3)
    unfold rule
    rw [h1, h2]
    cases c with
    | nwhen o c k =>
      cases d <;> simp only [bare, Cond.nwhen.injEq, reduceCtorEq] at h3
      next o' d' k' =>
      have hc : ({ p with next := X } : Past α).calls .life n = ({ p with next := [] } : Past α).calls .life m := by
        show ((p.runs.flatten.flatten ++ p.inRun).flatten ++ X).count n =
          ((p.runs.flatten.flatten ++ p.inRun).flatten ++ []).count m
        rw [List.count_append, List.count_eq_zero_of_not_mem hnX, List.append_nil, List.flatten_append,
          List.count_append, List.count_append, hr, h.count]
        rfl
      have hk' : holds e (some n) { p with next := X } c = holds e (some m) { p with next := [] } d' := hk
      simp only [hc, hk', h3.2.2]
    | leaf o k => cases d <;> simp only [bare, reduceCtorEq] at h3; exact hk
    | whileNot o k => cases d <;> simp only [bare, reduceCtorEq] at h3; exact hk
    | all o k => cases d <;> simp only [bare, reduceCtorEq] at h3; exact hk
    | any o k => cases d <;> simp only [bare, reduceCtorEq] at h3; exact hk
    | not o k => cases d <;> simp only [bare, reduceCtorEq] at h3; exact hk
  · unfold rule
    rw [h1, h2]
    simp only [h3, h4]
    refine decide_eq_decide.2 ⟨fun g d hd => ?_, fun g d hd => ?_⟩
    · have hd' := (h5 d).2 hd
      have := g d hd'
      rwa [callsSince_together (h6 d hd') hn hm h hX hnX] at this
    · rw [callsSince_together (h6 d hd) hn hm h hX hnX]
      exact g d ((h5 d).1 hd)

variable {s : Sys α κ W} {q : List (List α)} {abs : Bool} {T : Past α → Bool}

theorem passFrom_together (ha : AlikeNodes s l n m) (hn : n ∈ l) (hm : m ∈ l)
    (he : e.place n = e.place m) (runs : List (List (List (List α))))
    (hr : runs.flatten.flatten.flatten.count n = runs.flatten.flatten.flatten.count m)
    (hq : ∀ l' ∈ q, n ∈ l' ∨ m ∈ l' → l' = l) : ∀ p : Past α, p.runs = runs → p.next = [] →
      TogetherIn l n m p.inRun → TogetherIn l n m (passFrom abs (rule s e) T q p).inRun := by
  induction q with
  | nil => intro p _ _ h; exact h
  | cons l' q ih =>
    intro p hp hx h
    have ih := ih fun l1 h1 => hq l1 (List.mem_cons_of_mem _ h1)
    simp only [passFrom]
    split
    · exact h
    · split
      · exact ih p hp hx h
      · refine ih { p with now := p.now ++ [choice (rule s e) l' p] } hp hx ?_
        intro X hX
        have hX' : X ∈ p.inRun ∨ X = choice (rule s e) l' p := by
          simp only [Past.inRun, List.mem_append, List.mem_singleton] at hX ⊢
          rcases hX with h | h | h
          · exact .inl (.inl h)
          · exact .inl (.inr h)
          · exact .inr h
        rcases hX' with hX' | rfl
        · exact h X hX'
        · have kp := choice_part (R := rule s e) (l := l') hx
          refine ⟨kp.1, ?_, ?_⟩
          · by_cases hl : n ∈ l' ∨ m ∈ l'
            · have : l' = l := hq l' List.mem_cons_self hl
              subst this
              have hh : TogetherIn l' m m p.inRun := fun Y hY =>
                ⟨(h Y hY).1, Iff.rfl, fun k => (h Y hY).2.2 ((h Y hY).2.1.2 k)⟩
              rw [choice_decided hx hn (rule s e m { p with next := [] })
                  (fun X h1 h2 => rule_together ha hn hm he h (by rw [hp]; exact hr) h1 h2),
                choice_decided hx hm (rule s e m { p with next := [] })
                  (fun X h1 h2 => rule_together ha.symm.left hm hm rfl hh rfl h1 h2)]
            · refine ⟨fun k => absurd (.inl (kp.2 n k)) hl, fun k => absurd (.inr (kp.2 m k)) hl⟩
          · intro k x hx'
            have : l' = l := hq l' List.mem_cons_self (.inl (kp.2 n k))
            exact this ▸ kp.2 x hx'

theorem reference_together (ha : AlikeNodes s l n m) (hn : n ∈ l) (hm : m ∈ l)
    (he : e.place n = e.place m) (runs : List (List (List (List α))))
    (hr : runs.flatten.flatten.flatten.count n = runs.flatten.flatten.flatten.count m)
    (hq : ∀ l' ∈ q, n ∈ l' ∨ m ∈ l' → l' = l) (N : Nat) : ∀ p : Past α, p.runs = runs → p.next = [] →
      p.now = [] → TogetherIn l n m p.before.flatten →
      TogetherIn l n m (reference abs (rule s e) T q N p).before.flatten := by
  induction N with
  | zero => intro p _ _ _ h; exact h
  | succ N ih =>
    intro p hp hx hw h
    simp only [reference]
    split
    · exact h
    · have hf := passFrom_frame (abs := abs) (R := rule s e) (T := T) q p
      have h0 : TogetherIn l n m p.inRun := by unfold Past.inRun; rw [hw]; simpa using h
      have h1 := passFrom_together (abs := abs) (T := T) ha hn hm he runs hr hq p hp hx h0
      refine ih _ (hf.1.trans hp) (hf.2.2.1.trans hx) rfl ?_
      intro X hX
      simp only [closePass, List.flatten_append, List.mem_append, List.flatten_cons, List.flatten_nil,
        List.append_nil] at hX
      rcases hX with hX | hX
      · exact h1 X (List.mem_append_left _ hX)
      · split at hX
        · rw [List.mem_singleton] at hX
          subst hX
          exact ⟨.nil, by simp, by simp⟩
        · exact h1 X (List.mem_append_right _ hX)

end
end GS

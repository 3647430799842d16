import Verif.Spec.Stuck
import Verif.Rates
/-!
# Lemmas for C99: conditions that only wait
-/

set_option linter.unusedSectionVars false

namespace GS
open Spec TimeScale
variable {α κ W : Type _} [DecidableEq α] [DecidableEq κ]

/-! ## Evaluation -/

mutual
/-- The value of a waiting condition, given the number of passes, the calls of the nodes and
their calls since the owner's last one. -/
def holds (nodes : List α) (p : Nat) (cnt use : α → Nat) : Cond α κ W → Bool
  | .leaf _ .always => true
  | .leaf _ (.afterPass n _) => decide ((p : Int) > n)
  | .leaf _ (.afterNPasses n _) => decide ((p : Int) ≥ n)
  | .leaf _ (.afterCall d n _) => decide ((cnt d : Int) > n)
  | .leaf _ (.afterNCalls d n _) => decide ((cnt d : Int) ≥ n)
  | .leaf _ (.everyNCalls d n) => decide ((use d : Int) ≥ n)
  | .leaf _ (.allHaveRun ds _) => (Meant nodes ds).all fun d => decide (1 ≤ cnt d)
  | .all _ args => holdsAll nodes p cnt use args
  | .any _ args => holdsAny nodes p cnt use args
  | _ => false
def holdsAll (nodes : List α) (p : Nat) (cnt use : α → Nat) : List (Cond α κ W) → Bool
  | [] => true
  | c :: cs => holds nodes p cnt use c && holdsAll nodes p cnt use cs
def holdsAny (nodes : List α) (p : Nat) (cnt use : α → Nat) : List (Cond α κ W) → Bool
  | [] => false
  | c :: cs => holds nodes p cnt use c || holdsAny nodes p cnt use cs
end

/-- What the conditions of `b` see. -/
structure Sees (v : View α κ W) (id : Option κ) (nodes : List α) (b : α) (p : Nat)
    (cnt use : α → Nat) : Prop where
  atNodes : v.nodes = nodes
  owner : b ∈ nodes
  pass : (v.clock id).getTotalTimesRelative .pass .environment_state_update = .ok p
  total : ∃ f, Dict.get? v.countsTotal id = some f ∧ ∀ d, f .environment_state_update d = cnt d
  useable : ∃ u, Dict.get? v.countsUseable id = some u ∧ ∀ d, u d b = use d

theorem Sees.allRun {v : View α κ W} {id : Option κ} {nodes : List α} {b : α} {p : Nat}
    {cnt use : α → Nat} (hv : Sees v id nodes b p cnt use) : ∀ ds : List α, (∀ d ∈ ds, d ∈ nodes) →
    allHaveRunFunc v id .environment_state_update ds = .ok (ds.all fun d => decide (1 ≤ cnt d))
  | [], _ => rfl
  | d :: ds, h => by
    obtain ⟨f, hf, hc⟩ := hv.total
    have hd : v.total id .environment_state_update d = .ok (cnt d) := by
      unfold View.total
      rw [hf, hv.atNodes]
      simp [h d (by simp), hc]
    simp only [allHaveRunFunc, hd, List.all_cons]
    rw [hv.allRun ds fun x hx => h x (by simp [hx])]
    by_cases h1 : cnt d < 1
    · rw [if_pos h1]; simp; omega
    · rw [if_neg h1]
      have : decide (1 ≤ cnt d) = true := by simp; omega
      rw [this, Bool.true_and]

mutual
theorem eval_holds {v : View α κ W} {id : Option κ} {nodes : List α} {b : α} {p : Nat}
    {cnt use : α → Nat} (hv : Sees v id nodes b p cnt use) {st0 st : Store α κ}
    (ho : st.owner = st0.owner) : ∀ c : Cond α κ W, WaitsOnly nodes st0 b c →
    eval v id c st = (.ok (holds nodes p cnt use c), st)
  | .leaf o k, hw => by
    have hcount : ∀ d ∈ nodes, ∀ g, callCount v id .environment_state_update d g = .ok (g (cnt d)) := by
      intro d hd g
      obtain ⟨f, hf, hc⟩ := hv.total
      unfold callCount View.total
      rw [hf, hv.atNodes]
      simp [hd, hc]
    cases k <;> simp only [WaitsOnly] at hw <;> simp only [eval, evalLeaf, holds]
    case afterPass n ts => subst hw; unfold relTime; rw [hv.pass]
    case afterNPasses n ts => subst hw; unfold relTime; rw [hv.pass]
    case afterCall d n ts => obtain ⟨rfl, hd⟩ := hw; rw [hcount d hd]
    case afterNCalls d n ts => obtain ⟨rfl, hd⟩ := hw; rw [hcount d hd]
    case everyNCalls d n =>
      obtain ⟨hd, _, hob⟩ := hw
      obtain ⟨u, hu, hc⟩ := hv.useable
      have : v.useable id d (st.owner o) = .ok (use d) := by
        unfold View.useable
        rw [hu, hv.atNodes, ho, hob]
        simp [hd, hv.owner, hc]
      rw [this]
    case allHaveRun ds ts =>
      obtain ⟨rfl, hd⟩ := hw
      rw [hv.atNodes]
      have : ∀ d ∈ Meant nodes ds, d ∈ nodes := by
        intro d h
        unfold Meant at h
        split at h
        · exact h
        · exact hd d h
      have h2 := hv.allRun (Meant nodes ds) this
      unfold Meant at h2 ⊢
      rw [h2]
  | .all _ args, hw => by
    simp only [WaitsOnly] at hw
    simp only [eval, holds]
    exact evalAll_holds hv ho args hw
  | .any _ args, hw => by
    simp only [WaitsOnly] at hw
    simp only [eval, holds]
    exact evalAny_holds hv ho args hw
  | .not _ _, hw => by simp only [WaitsOnly] at hw
  | .nwhen _ _ _, hw => by simp only [WaitsOnly] at hw
  | .whileNot _ _, hw => by simp only [WaitsOnly] at hw
theorem evalAll_holds {v : View α κ W} {id : Option κ} {nodes : List α} {b : α} {p : Nat}
    {cnt use : α → Nat} (hv : Sees v id nodes b p cnt use) {st0 st : Store α κ}
    (ho : st.owner = st0.owner) : ∀ cs : List (Cond α κ W), WaitOnly nodes st0 b cs →
    evalAll v id cs st = (.ok (holdsAll nodes p cnt use cs), st)
  | [], _ => rfl
  | c :: cs, hw => by
    obtain ⟨h1, h2⟩ := hw
    simp only [evalAll, holdsAll]
    rw [eval_holds hv ho c h1]
    cases holds nodes p cnt use c
    · rfl
    · exact evalAll_holds hv ho cs h2
theorem evalAny_holds {v : View α κ W} {id : Option κ} {nodes : List α} {b : α} {p : Nat}
    {cnt use : α → Nat} (hv : Sees v id nodes b p cnt use) {st0 st : Store α κ}
    (ho : st.owner = st0.owner) : ∀ cs : List (Cond α κ W), WaitOnly nodes st0 b cs →
    evalAny v id cs st = (.ok (holdsAny nodes p cnt use cs), st)
  | [], _ => rfl
  | c :: cs, hw => by
    obtain ⟨h1, h2⟩ := hw
    simp only [evalAny, holdsAny]
    rw [eval_holds hv ho c h1]
    cases holds nodes p cnt use c
    · exact evalAny_holds hv ho cs h2
    · rfl
end

/-! ## What must have come -/

mutual
theorem comes_of_holds {nodes : List α} {p : Nat} {cnt use : α → Nat} {X : α → Prop}
    (h1 : ∀ d, 1 ≤ cnt d → X d) (h2 : ∀ d, 1 ≤ use d → X d) : ∀ c : Cond α κ W,
    holds nodes p cnt use c = true → Spec.Comes nodes X c
  | .leaf _ k, hh => by
    cases k <;> simp only [holds, Spec.Comes] at hh ⊢ <;> try trivial
    all_goals try (cases hh; done)
    case afterCall d n ts => intro hn; exact h1 d (by simp at hh; omega)
    case afterNCalls d n ts => intro hn; exact h1 d (by simp at hh; omega)
    case everyNCalls d n => intro hn; exact h2 d (by simp at hh; omega)
    case allHaveRun ds ts =>
      intro d hd
      exact h1 d (by simpa using List.all_eq_true.1 hh d hd)
  | .all _ args, hh => by
    simp only [holds] at hh; simp only [Spec.Comes]
    exact allCome_of_holds h1 h2 args hh
  | .any _ args, hh => by
    simp only [holds] at hh; simp only [Spec.Comes]
    exact someComes_of_holds h1 h2 args hh
  | .not _ _, hh => by simp [holds] at hh
  | .nwhen _ _ _, hh => by simp [holds] at hh
  | .whileNot _ _, hh => by simp [holds] at hh
theorem allCome_of_holds {nodes : List α} {p : Nat} {cnt use : α → Nat} {X : α → Prop}
    (h1 : ∀ d, 1 ≤ cnt d → X d) (h2 : ∀ d, 1 ≤ use d → X d) : ∀ cs : List (Cond α κ W),
    holdsAll nodes p cnt use cs = true → AllCome nodes X cs
  | [], _ => trivial
  | c :: cs, hh => by
    simp only [holdsAll, Bool.and_eq_true] at hh
    exact ⟨comes_of_holds h1 h2 c hh.1, allCome_of_holds h1 h2 cs hh.2⟩
theorem someComes_of_holds {nodes : List α} {p : Nat} {cnt use : α → Nat} {X : α → Prop}
    (h1 : ∀ d, 1 ≤ cnt d → X d) (h2 : ∀ d, 1 ≤ use d → X d) : ∀ cs : List (Cond α κ W),
    holdsAny nodes p cnt use cs = true → SomeComes nodes X cs
  | [], hh => by simp [holdsAny] at hh
  | c :: cs, hh => by
    simp only [holdsAny, Bool.or_eq_true] at hh
    exact hh.imp (comes_of_holds h1 h2 c) (someComes_of_holds h1 h2 cs)
end

/-! ## What will come -/

/-- Situations that are the later the larger the number. -/
structure Growing (X : α → Prop) (L : Nat → Nat → (α → Nat) → (α → Nat) → Prop) : Prop where
  anti : ∀ t t' p cnt use, t ≤ t' → L t' p cnt use → L t p cnt use
  pass : ∀ n : Nat, ∃ t, ∀ p cnt use, L t p cnt use → n ≤ p
  calls : ∀ d, X d → ∀ n : Nat, ∃ t, ∀ p cnt use, L t p cnt use → n ≤ cnt d ∧ n ≤ use d

theorem Growing.list {X : α → Prop} {L : Nat → Nat → (α → Nat) → (α → Nat) → Prop} (hL : Growing X L)
    (n : Nat) : ∀ ds : List α, (∀ d ∈ ds, X d) → ∃ t, ∀ p cnt use, L t p cnt use → ∀ d ∈ ds, n ≤ cnt d
  | [], _ => ⟨0, by simp⟩
  | d :: ds, h => by
    obtain ⟨t1, h1⟩ := hL.calls d (h d (by simp)) n
    obtain ⟨t2, h2⟩ := hL.list n ds fun x hx => h x (by simp [hx])
    refine ⟨max t1 t2, fun p cnt use hl x hx => ?_⟩
    rcases List.mem_cons.1 hx with rfl | hx
    · exact (h1 _ _ _ (hL.anti _ _ _ _ _ (Nat.le_max_left _ _) hl)).1
    · exact h2 _ _ _ (hL.anti _ _ _ _ _ (Nat.le_max_right _ _) hl) x hx

mutual
theorem holds_later {nodes : List α} {X : α → Prop} {L : Nat → Nat → (α → Nat) → (α → Nat) → Prop}
    (hL : Growing X L) : ∀ c : Cond α κ W, Spec.Comes nodes X c →
    ∃ t, ∀ p cnt use, L t p cnt use → holds nodes p cnt use c = true
  | .leaf _ k, hc => by
    cases k <;> simp only [holds, Spec.Comes] at hc ⊢
    case always => exact ⟨0, fun _ _ _ _ => trivial⟩
    case afterPass n ts =>
      obtain ⟨t, ht⟩ := hL.pass (n.toNat + 1)
      exact ⟨t, fun p cnt use hl => by have := ht p cnt use hl; simp; omega⟩
    case afterNPasses n ts =>
      obtain ⟨t, ht⟩ := hL.pass n.toNat
      exact ⟨t, fun p cnt use hl => by have := ht p cnt use hl; simp; omega⟩
    case afterCall d n ts =>
      by_cases hn : 0 ≤ n
      · obtain ⟨t, ht⟩ := hL.calls d (hc hn) (n.toNat + 1)
        exact ⟨t, fun p cnt use hl => by have := (ht p cnt use hl).1; simp; omega⟩
      · exact ⟨0, fun p cnt use hl => by simp; omega⟩
    case afterNCalls d n ts =>
      by_cases hn : 1 ≤ n
      · obtain ⟨t, ht⟩ := hL.calls d (hc hn) n.toNat
        exact ⟨t, fun p cnt use hl => by have := (ht p cnt use hl).1; simp; omega⟩
      · exact ⟨0, fun p cnt use hl => by simp; omega⟩
    case everyNCalls d n =>
      by_cases hn : 1 ≤ n
      · obtain ⟨t, ht⟩ := hL.calls d (hc hn) n.toNat
        exact ⟨t, fun p cnt use hl => by have := (ht p cnt use hl).2; simp; omega⟩
      · exact ⟨0, fun p cnt use hl => by simp; omega⟩
    case allHaveRun ds ts =>
      obtain ⟨t, ht⟩ := hL.list 1 _ hc
      exact ⟨t, fun p cnt use hl => by simpa using ht p cnt use hl⟩
  | .all _ args, hc => by
    simp only [Spec.Comes] at hc; simp only [holds]
    exact holdsAll_later hL args hc
  | .any _ args, hc => by
    simp only [Spec.Comes] at hc; simp only [holds]
    exact holdsAny_later hL args hc
  | .not _ _, hc => by simp [Spec.Comes] at hc
  | .nwhen _ _ _, hc => by simp [Spec.Comes] at hc
  | .whileNot _ _, hc => by simp [Spec.Comes] at hc
theorem holdsAll_later {nodes : List α} {X : α → Prop}
    {L : Nat → Nat → (α → Nat) → (α → Nat) → Prop}
    (hL : Growing X L) : ∀ cs : List (Cond α κ W), AllCome nodes X cs →
    ∃ t, ∀ p cnt use, L t p cnt use → holdsAll nodes p cnt use cs = true
  | [], _ => ⟨0, fun _ _ _ _ => rfl⟩
  | c :: cs, hc => by
    obtain ⟨t1, h1⟩ := holds_later hL c hc.1
    obtain ⟨t2, h2⟩ := holdsAll_later hL cs hc.2
    refine ⟨max t1 t2, fun p cnt use hl => ?_⟩
    simp only [holdsAll, Bool.and_eq_true]
    exact ⟨h1 _ _ _ (hL.anti _ _ _ _ _ (Nat.le_max_left _ _) hl),
      h2 _ _ _ (hL.anti _ _ _ _ _ (Nat.le_max_right _ _) hl)⟩
theorem holdsAny_later {nodes : List α} {X : α → Prop}
    {L : Nat → Nat → (α → Nat) → (α → Nat) → Prop}
    (hL : Growing X L) : ∀ cs : List (Cond α κ W), SomeComes nodes X cs →
    ∃ t, ∀ p cnt use, L t p cnt use → holdsAny nodes p cnt use cs = true
  | [], hc => by simp [SomeComes] at hc
  | c :: cs, hc => by
    rcases hc with hc | hc
    · obtain ⟨t, ht⟩ := holds_later hL c hc
      exact ⟨t, fun p cnt use hl => by simp only [holdsAny, Bool.or_eq_true]; exact .inl (ht _ _ _ hl)⟩
    · obtain ⟨t, ht⟩ := holdsAny_later hL cs hc
      exact ⟨t, fun p cnt use hl => by simp only [holdsAny, Bool.or_eq_true]; exact .inr (ht _ _ _ hl)⟩
end

end GS

import Verif.Stuck
import Verif.Props.Safe
import Verif.Props.EveryN
/-!
# Lemmas for C99: runs of schedulers whose conditions only wait
-/

set_option linter.unusedSectionVars false

namespace GS
open Spec TimeScale Props
variable {α κ W : Type _} [DecidableEq α] [DecidableEq κ]
variable {E : Sys α κ W → Sys α κ W → Prop} {a : RunArgs α κ W} {s0 s1 s : Sys α κ W}
variable {abs : Bool} {h : History α κ W} {pc : PC α}

/-! ## The conditions in force -/

mutual
theorem waitsOnly_ext {nodes : List α} {st st' : Store α κ} {b : α} (hx : StoreExt st st') :
    ∀ c : Cond α κ W, WaitsOnly nodes st b c → WaitsOnly nodes st' b c
  | .leaf o k, h => by
    cases k <;> simp only [WaitsOnly] at h ⊢ <;> try exact h
    exact ⟨h.1, Nat.lt_of_lt_of_le h.2.1 hx.fresh, (hx.owner o h.2.1).trans h.2.2⟩
  | .all _ args, h => by simp only [WaitsOnly] at h ⊢; exact waitOnly_ext hx args h
  | .any _ args, h => by simp only [WaitsOnly] at h ⊢; exact waitOnly_ext hx args h
  | .not _ _, h => by simp only [WaitsOnly] at h
  | .nwhen _ _ _, h => by simp only [WaitsOnly] at h
  | .whileNot _ _, h => by simp only [WaitsOnly] at h
theorem waitOnly_ext {nodes : List α} {st st' : Store α κ} {b : α} (hx : StoreExt st st') :
    ∀ cs : List (Cond α κ W), WaitOnly nodes st b cs → WaitOnly nodes st' b cs
  | [], _ => trivial
  | c :: cs, h => ⟨waitsOnly_ext hx c h.1, waitOnly_ext hx cs h.2⟩
end

theorem IsDefault.waits {nodes : List α} {n : α} {deps : List α} {st : Store α κ} {c : Cond α κ W}
    (hd : IsDefault st n deps c) (hds : ∀ d ∈ deps, d ∈ nodes) :
    WaitsOnly nodes st n c ∧ ∀ X, Spec.Comes nodes X c ↔ ∀ d ∈ deps, X d := by
  obtain ⟨o, rfl, h2, h3, h4⟩ := hd.ex
  match deps, hds, h2, h3, h4 with
  | [], _, _, _, _ => exact ⟨by simp [Sys.defaultCond, WaitsOnly], fun X => by simp [Sys.defaultCond, Spec.Comes]⟩
  | [d], hds, h2, h3, _ =>
    exact ⟨⟨hds d (by simp), by simp at h2; omega, h3 d rfl⟩, fun X => by
      simp [Sys.defaultCond, Spec.Comes]⟩
  | d :: d' :: ds, hds, h2, _, h4 =>
    have e : (Sys.defaultCond o (d :: d' :: ds) : Cond α κ W) =
        .all o (defaultLeaves (o + 1) (d :: d' :: ds)) := by
      simp only [Sys.defaultCond]; rw [defaultLeaves_eq, Nat.add_zero]
    rw [e]
    have key : ∀ (l : List α) (k : OId), (∀ d ∈ l, d ∈ nodes) →
        (∀ x, k ≤ x → x < k + l.length → x < st.fresh ∧ st.owner x = some n) →
        WaitOnly nodes st n (defaultLeaves k l : List (Cond α κ W)) ∧
        ∀ X, AllCome nodes X (defaultLeaves k l : List (Cond α κ W)) ↔ ∀ d ∈ l, X d := by
      intro l
      induction l with
      | nil => intro k _ _; exact ⟨trivial, fun X => by simp [defaultLeaves, AllCome]⟩
      | cons x l ih =>
        intro k hl hk
        obtain ⟨k1, k2⟩ := hk k (Nat.le_refl _) (by simp)
        obtain ⟨i1, i2⟩ := ih (k + 1) (fun y hy => hl y (by simp [hy])) (by
          intro y y1 y2
          exact hk y (by omega) (by simp; omega))
        refine ⟨⟨⟨hl x (by simp), k1, k2⟩, i1⟩, fun X => ?_⟩
        simp only [defaultLeaves, AllCome, i2 X, Spec.Comes, List.mem_cons, forall_eq_or_imp]
        simp
    obtain ⟨i1, i2⟩ := key (d :: d' :: ds) (o + 1) hds fun x x1 x2 =>
      ⟨by simp at h2 x2 ⊢; omega, h4 (by simp) x x1 (by simpa using x2)⟩
    exact ⟨by simp only [WaitsOnly]; exact i1, fun X => by simp only [Spec.Comes]; exact i2 X⟩

/-- The condition of a node in a run. -/
theorem started_waits (hH : Healthy s0) (hW : OnlyWaiting s0) (hs1 : s0.start a = (s1, .ok abs))
    {n : α} (hn : n ∈ s0.nodes) :
    ∃ c, Dict.get? s1.conds n = some c ∧ WaitsOnly s0.nodes s1.store n c ∧
      ∀ X, Spec.Comes s0.nodes X c ↔ NodeComes s0 X n := by
  obtain ⟨x1, x2, x3, _⟩ := (Sys.start_ok hs1).conds_spec
  cases hc0 : Dict.get? s0.conds n with
  | some c =>
    refine ⟨c, x2 n c hc0, waitsOnly_ext x1 c (hW n hn c hc0), fun X => ?_⟩
    simp [NodeComes, hc0]
  | none =>
    obtain ⟨deps, c, e1, e2, e3⟩ := x3 n hn hc0
    obtain ⟨i1, i2⟩ := e3.waits (hH.senders n deps e1)
    refine ⟨c, e2, i1, fun X => ?_⟩
    rw [i2 X]
    simp [NodeComes, hc0, e1]

/-- What the conditions of a node see while a set is chosen. -/
theorem Reach.sees {c : Choice α} (hE : LeavesBooks E a.id) (hH : Healthy s0)
    (hr : Reach E a s0 abs h s (.choosing c)) {n : α} (hn : n ∈ s0.nodes) :
    ∃ p u, passes h ≤ p + 1 ∧ UseInv (selections h) u ∧
      Sees s.toView a.id s0.nodes n p (fun d => (selections h).count d) (fun d => u d n) := by
  obtain ⟨log0, h0⟩ := hH.clock a.id
  obtain ⟨log, hl, hp, _⟩ := C22_in_run hr hE.clock h0
  obtain ⟨f, _, hf, _, _, _, hc⟩ := C11_run_count hr hE.total
  obtain ⟨u, hu, hi⟩ := hr.useable hE.useable
  have e : (h.countP fun e => decide (e.ev = .passStart)) = passes h := rfl
  exact ⟨_, u, by omega, hi, hr.keepNodes hE.nodes, hn,
    clock_elapsed hl (.inr (by decide)) (by decide), ⟨f, hf, hc⟩, ⟨u, hu, fun _ => rfl⟩⟩

/-! ## Splitting histories -/

theorem passes_append (g g' : History α κ W) : passes (g ++ g') = passes g + passes g' :=
  List.countP_append

theorem passes_split : ∀ (g : History α κ W) (k : Nat), k ≤ passes g →
    ∃ g1 g2, g = g1 ++ g2 ∧ passes g1 = k
  | g, 0, _ => ⟨[], g, rfl, rfl⟩
  | [], k + 1, hk => by simp [passes] at hk
  | e :: g, k + 1, hk => by
    unfold passes at hk
    rw [List.countP_cons] at hk
    by_cases he : isPassStart e = true
    · rw [if_pos he] at hk
      obtain ⟨g1, g2, rfl, h2⟩ := passes_split g k (by unfold passes; omega)
      exact ⟨e :: g1, g2, rfl, by unfold passes at h2 ⊢; rw [List.countP_cons, if_pos he, h2]⟩
    · rw [if_neg he] at hk
      obtain ⟨g1, g2, rfl, h2⟩ := passes_split g (k + 1) (by unfold passes; omega)
      exact ⟨e :: g1, g2, rfl, by unfold passes at h2 ⊢; rw [List.countP_cons, if_neg he, h2]⟩

theorem last_pass : ∀ (g : History α κ W), 1 ≤ passes g →
    ∃ x e y, g = x ++ e :: y ∧ e.ev = .passStart ∧ passes y = 0
  | [], hk => by simp [passes] at hk
  | e :: g, hk => by
    by_cases hg : 1 ≤ passes g
    · obtain ⟨x, e', y, rfl, h2, h3⟩ := last_pass g hg
      exact ⟨e :: x, e', y, rfl, h2, h3⟩
    · unfold passes at hk
      rw [List.countP_cons] at hk
      by_cases he : isPassStart e = true
      · exact ⟨[], e, g, rfl, by simpa [isPassStart] using he, by omega⟩
      · rw [if_neg he] at hk; unfold passes at hg; omega

theorem Reach.pre (hr : Reach E a s0 abs h s pc) {g g' : History α κ W} (hh : h = g ++ g') :
    ∃ s pc, Reach E a s0 abs g s pc := by
  cases g' with
  | nil => rw [List.append_nil] at hh; subst hh; exact ⟨s, pc, hr⟩
  | cons e g' => obtain ⟨p, _, h1, _⟩ := hr.entry g e g' hh; exact ⟨_, p, h1⟩

/-! ## Considered sets are chosen -/

/-- The choice from a set considered was made, or is being made. -/
theorem Reach.chosen (hr : Reach E a s0 abs h s pc) : ∀ j ∈ setsConsidered (currentPass h),
    (∃ e ∈ currentPass h, ∃ set shown, e.ev = .layer j set shown) ∨
    (∃ c, pc = .choosing c ∧ c.idx = j) ∨ ∃ er, pc = .raised er := by
  refine hr.ind (P := fun h _ pc => ∀ j ∈ setsConsidered (currentPass h),
    (∃ e ∈ currentPass h, ∃ set shown, e.ev = .layer j set shown) ∨
    (∃ c, pc = .choosing c ∧ c.idx = j) ∨ ∃ er, pc = .raised er) ?_ ?_ ?_
  · intro s _ j hj; simp [currentPass, afterLast, setsConsidered] at hj
  · intro h s s' pc pc' ev _ ih hst
    -- the event (none, or not the beginning of a pass or of a choice) keeps what was chosen
    have keep : ∀ (x : Event α), x ≠ .passStart → (∀ i l, x ≠ .consider i l) →
        ∀ j ∈ setsConsidered (currentPass (ext h s (some x) s')),
        j ∈ setsConsidered (currentPass h) := by
      intro x h1 h2 j hj
      rwa [setsConsidered_cur_ext _ _ _ _ h1 h2] at hj
    have sub : ∀ (x : Event α), x ≠ .passStart → ∀ e ∈ currentPass h,
        e ∈ currentPass (ext h s (some x) s') := by
      intro x h1 e he
      rw [ext_some, currentPass_snoc, if_neg h1]
      simp [he]
    have new : ∀ (x : Event α), x ≠ .passStart →
        ⟨s, x, s'⟩ ∈ currentPass (ext h s (some x) s') := by
      intro x h1
      rw [ext_some, currentPass_snoc, if_neg h1]
      simp
    cases hst with
    | pass =>
      intro j hj
      simp [currentPass_snoc, setsConsidered] at hj
    | consider =>
      intro j hj
      rw [ext_some, currentPass_snoc, if_neg (by simp), setsConsidered_snoc] at hj
      rcases List.mem_append.1 hj with hj | hj
      · rcases ih j hj with ⟨e, he, hx⟩ | ⟨c, hc, _⟩ | ⟨er, hc⟩
        · exact .inl ⟨e, sub _ (by simp) e he, hx⟩
        · cases hc
        · cases hc
      · simp at hj; subst hj
        exact .inr (.inl ⟨_, rfl, rfl⟩)
    | again =>
      intro j hj
      rw [ext_none] at hj ⊢
      rcases ih j hj with hx | ⟨c, hc, hi⟩ | ⟨er, hc⟩
      · exact .inl hx
      · cases hc; exact .inr (.inl ⟨_, rfl, hi⟩)
      · cases hc
    | skip =>
      intro j hj
      rw [ext_none] at hj ⊢
      rcases ih j hj with hx | ⟨c, hc, hi⟩ | ⟨er, hc⟩
      · exact .inl hx
      · cases hc; exact .inr (.inl ⟨_, rfl, hi⟩)
      · cases hc
    | reject =>
      intro j hj
      rw [ext_none] at hj ⊢
      rcases ih j hj with hx | ⟨c, hc, hi⟩ | ⟨er, hc⟩
      · exact .inl hx
      · cases hc; exact .inr (.inl ⟨_, rfl, hi⟩)
      · cases hc
    | add =>
      intro j hj
      rcases ih j (keep _ (by simp) (by simp) j hj) with ⟨e, he, hx⟩ | ⟨c, hc, hi⟩ | ⟨er, hc⟩
      · exact .inl ⟨e, sub _ (by simp) e he, hx⟩
      · cases hc; exact .inr (.inl ⟨_, rfl, hi⟩)
      · cases hc
    | yield =>
      intro j hj
      rcases ih j (keep _ (by simp) (by simp) j hj) with ⟨e, he, hx⟩ | ⟨c, hc, hi⟩ | ⟨er, hc⟩
      · exact .inl ⟨e, sub _ (by simp) e he, hx⟩
      · cases hc; subst hi; exact .inl ⟨_, new _ (by simp), _, _, rfl⟩
      · cases hc
    | yieldAbs =>
      intro j hj
      rcases ih j (keep _ (by simp) (by simp) j hj) with ⟨e, he, hx⟩ | ⟨c, hc, hi⟩ | ⟨er, hc⟩
      · exact .inl ⟨e, sub _ (by simp) e he, hx⟩
      · cases hc; subst hi; exact .inl ⟨_, new _ (by simp), _, _, rfl⟩
      · cases hc
    | silent =>
      intro j hj
      rcases ih j (keep _ (by simp) (by simp) j hj) with ⟨e, he, hx⟩ | ⟨c, hc, hi⟩ | ⟨er, hc⟩
      · exact .inl ⟨e, sub _ (by simp) e he, hx⟩
      · cases hc; subst hi; exact .inl ⟨_, new _ (by simp), _, _, rfl⟩
      · cases hc
    | stopSkip =>
      intro j hj
      rcases ih j (keep _ (by simp) (by simp) j hj) with ⟨e, he, hx⟩ | ⟨c, hc, hi⟩ | ⟨er, hc⟩
      · exact .inl ⟨e, sub _ (by simp) e he, hx⟩
      · cases hc
      · cases hc
    | stopIncr =>
      intro j hj
      rcases ih j (keep _ (by simp) (by simp) j hj) with ⟨e, he, hx⟩ | ⟨c, hc, hi⟩ | ⟨er, hc⟩
      · exact .inl ⟨e, sub _ (by simp) e he, hx⟩
      · cases hc
      · cases hc
    | emptyYield =>
      intro j hj
      rcases ih j (keep _ (by simp) (by simp) j hj) with ⟨e, he, hx⟩ | ⟨c, hc, hi⟩ | ⟨er, hc⟩
      · exact .inl ⟨e, sub _ (by simp) e he, hx⟩
      · cases hc
      · cases hc
    | fails => exact fun j _ => .inr (.inr ⟨_, rfl⟩)
    | raised => exact fun j _ => .inr (.inr ⟨_, rfl⟩)
    | _ =>
      intro j hj
      rw [ext_none] at hj ⊢
      rcases ih j hj with hx | ⟨c, hc, hi⟩ | ⟨er, hc⟩
      · exact .inl hx
      · cases hc
      · cases hc
  · intro h s s' pc _ ih hp _ j hj
    exact ih j hj

end GS

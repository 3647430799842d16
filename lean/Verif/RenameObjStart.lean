import Verif.RenameObj
/-!
# Lemmas: the beginning of runs of schedulers with corresponding condition objects
-/

set_option linter.unusedSectionVars false

namespace GS
open Spec
variable {α κ W : Type _} [DecidableEq α] [DecidableEq κ]
variable {ρ : Nat → Nat} {P : Nat → Prop} {a a' : RunArgs α κ W} {abs : Bool} {s s' t t' : Sys α κ W}

theorem rebuild_defaultLeaves {ρ : Nat → Nat} : ∀ (ds : List α) (o o' : Nat),
    (∀ k, ρ (o + k) = o' + k) →
    rebuilds ρ (defaultLeaves o ds : List (Cond α κ W)) = defaultLeaves o' ds
  | [], _, _, _ => rfl
  | d :: ds, o, o', h => by
    simp only [defaultLeaves, rebuilds, Cond.rebuild]
    rw [rebuild_defaultLeaves ds (o + 1) (o' + 1) fun k => by
      have := h (1 + k); rw [← Nat.add_assoc] at this; rw [this]; omega]
    have := h 0
    simp only [Nat.add_zero] at this
    rw [this]

theorem rebuild_defaultCond {ρ : Nat → Nat} {o o' : Nat} (h : ∀ k, ρ (o + k) = o' + k) :
    ∀ (ds : List α), (Sys.defaultCond o ds : Cond α κ W).rebuild ρ = Sys.defaultCond o' ds
  | [] => by simp only [Sys.defaultCond, Cond.rebuild]; rw [show ρ o = o' from h 0]
  | [d] => by simp only [Sys.defaultCond, Cond.rebuild]; rw [show ρ o = o' from h 0]
  | d :: d' :: ds => by
    have e : ∀ o, (Sys.defaultCond o (d :: d' :: ds) : Cond α κ W) =
        .all o (defaultLeaves (o + 1) (d :: d' :: ds)) := by
      intro o; simp only [Sys.defaultCond]; rw [defaultLeaves_eq, Nat.add_zero]
    rw [e, e]
    simp only [Cond.rebuild]
    rw [show ρ o = o' from h 0, rebuild_defaultLeaves _ (o + 1) (o' + 1) fun k => by
      have := h (1 + k); rw [← Nat.add_assoc] at this; rw [this]; omega]

/-- The objects made from `f` on correspond to those made from `f'` on. -/
def extend (ρ : Nat → Nat) (f f' : Nat) (o : Nat) : Nat := if o < f then ρ o else f' + (o - f)

theorem extend_old {f f' o : Nat} (h : o < f) : extend ρ f f' o = ρ o := if_pos h

theorem extend_new {f f' o : Nat} (h : f ≤ o) : extend ρ f f' o = f' + (o - f) :=
  if_neg (by omega)

/-- While implicit conditions are made. -/
structure Making (ρ : Nat → Nat) (P : Nat → Prop) (f f' : Nat) (s s' : Sys α κ W) : Prop where
  mirror : Mirror (extend ρ f f') (fun o => P o ∨ f ≤ o ∧ o < s.store.fresh) s s'
  sync : s'.store.fresh + f = s.store.fresh + f'
  le : f ≤ s.store.fresh
  old : ∀ o, P o → o < f
  old' : ∀ o, P o → ρ o < f'

variable {f f' : Nat}

theorem Making.alloc (h : Making ρ P f f' s s') (k : Nat) :
    Making ρ P f f' (s.alloc k) (s'.alloc k) := by
  refine ⟨⟨?_, ⟨?_, ?_, ?_⟩, ?_⟩, ?_, ?_, h.old, h.old'⟩
  · conv => lhs; rw [h.mirror.eq]
    rfl
  · intro o o' ho ho' e
    rcases ho with ho | ⟨ho, _⟩ <;> rcases ho' with ho' | ⟨ho', _⟩
    · exact h.mirror.via.inj o o' (.inl ho) (.inl ho') e
    · have k1 := h.old o ho
      have k2 := h.old' o ho
      rw [extend_old k1, extend_new ho'] at e; omega
    · have k1 := h.old o' ho'
      have k2 := h.old' o' ho'
      rw [extend_old k1, extend_new ho] at e; omega
    · rw [extend_new ho, extend_new ho'] at e; omega
  · intro o ho
    show (if s'.store.fresh ≤ extend ρ f f' o then none else s'.store.owner (extend ρ f f' o)) =
      if s.store.fresh ≤ o then none else s.store.owner o
    by_cases hf : o < s.store.fresh
    · have hx : P o ∨ f ≤ o ∧ o < s.store.fresh := by
        rcases ho with ho | ho
        · exact .inl ho
        · exact .inr ⟨ho.1, hf⟩
      have hy : extend ρ f f' o < s'.store.fresh := by
        have h1 := h.sync; have h2 := h.le
        rcases hx with hx | hx
        · rw [extend_old (h.old o hx)]; have := h.old' o hx; omega
        · rw [extend_new hx.1]; omega
      rw [if_neg (by omega), if_neg (by omega)]
      exact h.mirror.via.owner o hx
    · have hy : s'.store.fresh ≤ extend ρ f f' o := by
        have h1 := h.sync; have h2 := h.le
        rw [extend_new (by omega)]; omega
      rw [if_pos hy, if_pos (by omega)]
  · intro o ho i
    show (if s'.store.fresh ≤ extend ρ f f' o then 0 else s'.store.sat (extend ρ f f' o) i) =
      if s.store.fresh ≤ o then 0 else s.store.sat o i
    by_cases hf : o < s.store.fresh
    · have hx : P o ∨ f ≤ o ∧ o < s.store.fresh := by
        rcases ho with ho | ho
        · exact .inl ho
        · exact .inr ⟨ho.1, hf⟩
      have hy : extend ρ f f' o < s'.store.fresh := by
        have h1 := h.sync; have h2 := h.le
        rcases hx with hx | hx
        · rw [extend_old (h.old o hx)]; have := h.old' o hx; omega
        · rw [extend_new hx.1]; omega
      rw [if_neg (by omega), if_neg (by omega)]
      exact h.mirror.via.sat o hx i
    · have hy : s'.store.fresh ≤ extend ρ f f' o := by
        have h1 := h.sync; have h2 := h.le
        rw [extend_new (by omega)]; omega
      rw [if_pos hy, if_pos (by omega)]
  · refine h.mirror.conds.imp fun c c' hc => ⟨hc.1, fun o ho => ?_⟩
    have : s.store.fresh ≤ (s.alloc k).store.fresh := Nat.le_add_right _ _
    rcases hc.2 o ho with h1 | h1
    · exact .inl h1
    · exact .inr ⟨h1.1, by omega⟩
  · show s'.store.fresh + k + f = s.store.fresh + k + f'
    have := h.sync; omega
  · show f ≤ s.store.fresh + k
    have := h.le; omega

/-- Adding corresponding conditions. -/
theorem Mirror.addBasic (h : Mirror ρ P s s') {c c' : Cond α κ W} (hc : Rebuilt ρ P c c') (n : α) :
    Mirror ρ P (s.addBasic n c) (s'.addBasic n c') := by
  obtain ⟨rfl, hp⟩ := hc
  refine ⟨?_, setOwner_rebuild (some n) c _ _ hp h.via, h.conds.set n ⟨rfl, hp⟩⟩
  conv => lhs; rw [h.eq]
  rfl

theorem Sys.addBasic_fresh (s : Sys α κ W) (n : α) (c : Cond α κ W) :
    (s.addBasic n c).store.fresh = s.store.fresh := (setOwner_rest (some n) c s.store).2

theorem Making.add (h : Making ρ P f f' s s') (n : α) (deps : List α) :
    Making ρ P f f' ((s.alloc (deps.length + 1)).addBasic n (Sys.defaultCond s.store.fresh deps))
      ((s'.alloc (deps.length + 1)).addBasic n (Sys.defaultCond s'.store.fresh deps)) := by
  have h1 := h.alloc (deps.length + 1)
  have hr : Rebuilt (extend ρ f f') (fun o => P o ∨ f ≤ o ∧ o < (s.alloc (deps.length + 1)).store.fresh)
      (Sys.defaultCond s.store.fresh deps : Cond α κ W) (Sys.defaultCond s'.store.fresh deps) := by
    refine ⟨(rebuild_defaultCond (fun k => ?_) deps).symm, fun o ho => .inr ?_⟩
    · have h1 := h.sync; have h2 := h.le
      rw [extend_new (by omega)]; omega
    · have := defaultCond_occurs _ _ o ho
      have h2 := h.le
      refine ⟨by omega, ?_⟩
      show o < s.store.fresh + (deps.length + 1)
      omega
  refine ⟨?_, ?_, ?_, h.old, h.old'⟩
  · rw [Sys.addBasic_fresh]
    exact h1.mirror.addBasic hr n
  · rw [Sys.addBasic_fresh, Sys.addBasic_fresh]; exact h1.sync
  · rw [Sys.addBasic_fresh]; exact h1.le

theorem Making.validateConditions : ∀ (ns : List α) {s s' : Sys α κ W}, Making ρ P f f' s s' →
    (Sys.validateConditions ns s').2 = (Sys.validateConditions ns s).2 ∧
      Making ρ P f f' (Sys.validateConditions ns s).1 (Sys.validateConditions ns s').1
  | [], s, s', h => ⟨rfl, h⟩
  | n :: ns, s, s', h => by
    have hg : s'.graph = s.graph := by rw [h.mirror.eq]; rfl
    simp only [Sys.validateConditions]
    rw [hg]
    rcases h.mirror.conds.get n with ⟨h1, h2⟩ | ⟨c, c', h1, h2, _⟩
    · rw [h1, h2]
      dsimp only
      cases Dict.get? s.graph n with
      | none => exact ⟨rfl, h⟩
      | some deps => exact Making.validateConditions ns (h.add n deps)
    · rw [h1, h2]
      exact Making.validateConditions ns h

/-- Nothing made yet. -/
theorem Mirror.making (h : Mirror ρ P s s') (ho : ∀ o, P o → o < s.store.fresh)
    (ho' : ∀ o, P o → ρ o < s'.store.fresh) : Making ρ P s.store.fresh s'.store.fresh s s' := by
  have hp : ∀ o, (P o ∨ s.store.fresh ≤ o ∧ o < s.store.fresh) → P o := by
    rintro o (h | h)
    · exact h
    · omega
  refine ⟨⟨h.eq, ⟨fun o o' k k' e => ?_, fun o k => ?_, fun o k i => ?_⟩, ?_⟩, by omega,
    Nat.le_refl _, ho, ho'⟩
  · rw [extend_old (ho o (hp o k)), extend_old (ho o' (hp o' k'))] at e
    exact h.via.inj o o' (hp o k) (hp o' k') e
  · rw [extend_old (ho o (hp o k))]; exact h.via.owner o (hp o k)
  · rw [extend_old (ho o (hp o k))]; exact h.via.sat o (hp o k) i
  · refine h.conds.imp fun c c' hc => ⟨?_, fun o k => .inl (hc.2 o k)⟩
    rw [hc.1]
    exact (rebuild_eq c fun o k => extend_old (ho o (hc.2 o k))).symm

theorem MirrorArgs.making (h : MirrorArgs ρ P a a') {f f' g : Nat} (ho : ∀ o, P o → o < f) :
    MirrorArgs (extend ρ f f') (fun o => P o ∨ f ≤ o ∧ o < g) a a' := by
  have k : ∀ c c' : Cond α κ W, Rebuilt ρ P c c' →
      Rebuilt (extend ρ f f') (fun o => P o ∨ f ≤ o ∧ o < g) c c' := by
    intro c c' hc
    refine ⟨?_, fun o k => .inl (hc.2 o k)⟩
    rw [hc.1]
    exact (rebuild_eq c fun o k => extend_old (ho o (hc.2 o k))).symm
  exact ⟨h.id, h.base, h.skip, k _ _ h.esu, k _ _ h.seq, h.others.imp k⟩

/-- After the implicit conditions have been made. -/
theorem Sys.start_storeOf (s : Sys α κ W) (a : RunArgs α κ W) :
    (s.start a).1.store = s.validateRunState.1.store := by
  unfold Sys.start
  rcases hv : s.validateRunState with ⟨s1, _ | e⟩
  · dsimp only
    have g : (s1.getClock a.id).store = s1.store := by
      unfold Sys.getClock; cases Dict.get? s1.clocks a.id <;> rfl
    have g2 : ((s1.getClock a.id).setupAbsolute a).1.store = s1.store := by
      unfold Sys.setupAbsolute
      dsimp only
      split
      · exact g
      · cases (s1.getClock a.id).absoluteUnit ((s1.getClock a.id).absoluteConds a) <;> exact g
    rcases h2 : (s1.getClock a.id).setupAbsolute a with ⟨s2, e | ab⟩
    · rw [h2] at g2; exact g2
    · rw [h2] at g2
      dsimp only at g2 ⊢
      have g3 := (Sys.initCounts_conds s2 a.id a.base).2
      rcases h3 : s2.initCounts a.id a.base with ⟨s3, _ | e⟩
      · rw [h3] at g3
        dsimp only at g3 ⊢
        cases h4 : (s3.resetUseable a.id).resetTotal .environment_state_update a.id with
        | error e => exact g3.trans g2
        | ok u => exact (Sys.resetTotal_conds h4).2.trans (g3.trans g2)
      · rw [h3] at g3; exact g3.trans g2
  · rfl

/-- The beginnings of corresponding runs correspond. -/
theorem Mirror.start (h : Mirror ρ P s s') (ha : MirrorArgs ρ P a a')
    (ho : ∀ o, P o → o < s.store.fresh) (ho' : ∀ o, P o → ρ o < s'.store.fresh) :
    (s'.start a').2 = (s.start a).2 ∧
    Making ρ P s.store.fresh s'.store.fresh (s.start a).1 (s'.start a').1 := by
  have hg0 := h.making ho ho'
  have hg : s'.graph = s.graph := congrArg View.graph h.view
  have hn : s'.nodes = s.nodes := congrArg View.nodes h.view
  have hv : s'.validateRunState.2 = s.validateRunState.2 ∧
      Making ρ P s.store.fresh s'.store.fresh s.validateRunState.1 s'.validateRunState.1 := by
    unfold Sys.validateRunState
    rw [hg, hn]
    cases toposort s.graph with
    | error e => exact ⟨rfl, hg0⟩
    | ok _ => exact Making.validateConditions s.nodes hg0
  have e1 := Sys.start_storeOf s a
  have e2 := Sys.start_storeOf s' a'
  suffices hs : Mirrors (extend ρ s.store.fresh s'.store.fresh)
      (fun o => P o ∨ s.store.fresh ≤ o ∧ o < s.validateRunState.1.store.fresh)
      (s.start a) (s'.start a') by
    refine ⟨hs.1, ?_, ?_, ?_, ho, ho'⟩
    · rw [e1]; exact hs.2
    · rw [e1, e2]; exact hv.2.sync
    · rw [e1]; exact hv.2.le
  clear e1 e2
  obtain ⟨k1, k2⟩ := hv
  have ht := k2.mirror
  have hma := ha.making (f' := s'.store.fresh) (g := s.validateRunState.1.store.fresh) ho
  clear k2 hg0 hg hn
  generalize extend ρ s.store.fresh s'.store.fresh = ρ' at ht hma ⊢
  generalize (fun o => P o ∨ s.store.fresh ≤ o ∧ o < s.validateRunState.1.store.fresh) = P' at ht hma ⊢
  unfold Sys.start
  rcases e : s.validateRunState with ⟨s1, r⟩
  rcases e' : s'.validateRunState with ⟨s1', r'⟩
  rw [e, e'] at k1 ht
  dsimp only at k1 ht
  subst k1
  rcases r' with _ | er
  · dsimp only
    have k3 := (ht.getClock a.id).setupAbsolute hma
    rw [ha.id]
    rcases f : (s1.getClock a.id).setupAbsolute a with ⟨s2, q⟩
    rcases f' : (s1'.getClock a.id).setupAbsolute a' with ⟨s2', q'⟩
    rw [f, f'] at k3
    obtain ⟨k3, k4⟩ := k3
    dsimp only at k3 k4
    subst k3
    rcases q' with er | ab
    · exact ⟨rfl, k4⟩
    · dsimp only
      rw [ha.base]
      have k5 := k4.initCounts a.id a.base
      rcases g : s2.initCounts a.id a.base with ⟨s3, p⟩
      rcases g' : s2'.initCounts a.id a.base with ⟨s3', p'⟩
      rw [g, g'] at k5
      obtain ⟨k5, k6⟩ := k5
      dsimp only at k5 k6
      subst k5
      rcases p' with _ | er
      · dsimp only
        have e2 : s3'.resetUseable a.id = (s3.resetUseable a.id).recond s3'.conds s3'.store := by
          conv => lhs; rw [k6.eq]
          rfl
        have k7 : Mirror ρ' P' (s3.resetUseable a.id) (s3'.resetUseable a.id) := by
          rw [e2]; exact k6.change rfl rfl
        have k8 := k7.resetTotal a.id .environment_state_update
        rcases m : (s3.resetUseable a.id).resetTotal .environment_state_update a.id with x | u <;>
          rcases m' : (s3'.resetUseable a.id).resetTotal .environment_state_update a.id with x' | u' <;>
          rw [m, m'] at k8
        · cases k8; exact ⟨rfl, k7⟩
        · exact k8.elim
        · exact k8.elim
        · exact ⟨rfl, k8⟩
      · exact ⟨rfl, k6⟩
  · exact ⟨rfl, ht⟩

end GS

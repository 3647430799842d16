import Verif.EquivStart
/-!
# Lemmas: the identities of condition objects do not matter

Two schedulers whose conditions are built in the same way from different objects, the
objects of one corresponding to those of the other with the same attributes, do the same.
-/

set_option linter.unusedSectionVars false

namespace GS
open Spec
variable {α κ W : Type _} [DecidableEq α] [DecidableEq κ]
variable {ρ : Nat → Nat} {P : Nat → Prop} {a a' : RunArgs α κ W} {abs : Bool} {s s' t t' : Sys α κ W}

mutual
/-- The same condition built from other objects. -/
def Cond.rebuild (ρ : Nat → Nat) : Cond α κ W → Cond α κ W
  | .leaf o k => .leaf (ρ o) k
  | .whileNot o f => .whileNot (ρ o) f
  | .all o args => .all (ρ o) (rebuilds ρ args)
  | .any o args => .any (ρ o) (rebuilds ρ args)
  | .not o c => .not (ρ o) (c.rebuild ρ)
  | .nwhen o c n => .nwhen (ρ o) (c.rebuild ρ) n
/-- All of them. -/
def rebuilds (ρ : Nat → Nat) : List (Cond α κ W) → List (Cond α κ W)
  | [] => []
  | c :: cs => c.rebuild ρ :: rebuilds ρ cs
end

theorem rebuild_oid (c : Cond α κ W) : (c.rebuild ρ).oid = ρ c.oid := by
  cases c <;> simp only [Cond.rebuild, Cond.oid]

theorem occurs_oid (c : Cond α κ W) : Occurs c.oid c := by
  cases c <;> simp [Occurs, Cond.oid]

mutual
theorem occurs_rebuild : ∀ (c : Cond α κ W) (o : Nat),
    Occurs o (c.rebuild ρ) → ∃ x, Occurs x c ∧ o = ρ x
  | .leaf x _, o, h => ⟨x, rfl, h⟩
  | .whileNot x _, o, h => ⟨x, rfl, h⟩
  | .all x args, o, h => by
    rcases h with h | h
    · exact ⟨x, .inl rfl, h⟩
    · obtain ⟨y, h1, h2⟩ := occurs_rebuilds args o h
      exact ⟨y, .inr h1, h2⟩
  | .any x args, o, h => by
    rcases h with h | h
    · exact ⟨x, .inl rfl, h⟩
    · obtain ⟨y, h1, h2⟩ := occurs_rebuilds args o h
      exact ⟨y, .inr h1, h2⟩
  | .not x c, o, h => by
    rcases h with h | h
    · exact ⟨x, .inl rfl, h⟩
    · obtain ⟨y, h1, h2⟩ := occurs_rebuild c o h
      exact ⟨y, .inr h1, h2⟩
  | .nwhen x c n, o, h => by
    rcases h with h | h
    · exact ⟨x, .inl rfl, h⟩
    · obtain ⟨y, h1, h2⟩ := occurs_rebuild c o h
      exact ⟨y, .inr h1, h2⟩
theorem occurs_rebuilds : ∀ (cs : List (Cond α κ W)) (o : Nat),
    OccursAny o (rebuilds ρ cs) → ∃ x, OccursAny x cs ∧ o = ρ x
  | [], _, h => h.elim
  | c :: cs, o, h => by
    rcases h with h | h
    · obtain ⟨y, h1, h2⟩ := occurs_rebuild c o h
      exact ⟨y, .inl h1, h2⟩
    · obtain ⟨y, h1, h2⟩ := occurs_rebuilds cs o h
      exact ⟨y, .inr h1, h2⟩
end

mutual
theorem rebuild_eq {ρ ρ' : Nat → Nat} : ∀ (c : Cond α κ W), (∀ o, Occurs o c → ρ' o = ρ o) →
    c.rebuild ρ' = c.rebuild ρ
  | .leaf x _, h => by simp only [Cond.rebuild, h x rfl]
  | .whileNot x _, h => by simp only [Cond.rebuild, h x rfl]
  | .all x args, h => by
    simp only [Cond.rebuild, h x (.inl rfl), rebuilds_eq args fun o k => h o (.inr k)]
  | .any x args, h => by
    simp only [Cond.rebuild, h x (.inl rfl), rebuilds_eq args fun o k => h o (.inr k)]
  | .not x c, h => by
    simp only [Cond.rebuild, h x (.inl rfl), rebuild_eq c fun o k => h o (.inr k)]
  | .nwhen x c _, h => by
    simp only [Cond.rebuild, h x (.inl rfl), rebuild_eq c fun o k => h o (.inr k)]
theorem rebuilds_eq {ρ ρ' : Nat → Nat} : ∀ (cs : List (Cond α κ W)),
    (∀ o, OccursAny o cs → ρ' o = ρ o) → rebuilds ρ' cs = rebuilds ρ cs
  | [], _ => rfl
  | c :: cs, h => by
    simp only [rebuilds, rebuild_eq c fun o k => h o (.inl k), rebuilds_eq cs fun o k => h o (.inr k)]
end

mutual
theorem rebuild_id : ∀ (c : Cond α κ W), c.rebuild (fun o => o) = c
  | .leaf x _ => rfl
  | .whileNot x _ => rfl
  | .all x args => by simp only [Cond.rebuild, rebuilds_id args]
  | .any x args => by simp only [Cond.rebuild, rebuilds_id args]
  | .not x c => by simp only [Cond.rebuild, rebuild_id c]
  | .nwhen x c _ => by simp only [Cond.rebuild, rebuild_id c]
theorem rebuilds_id : ∀ (cs : List (Cond α κ W)), rebuilds (fun o => o) cs = cs
  | [] => rfl
  | c :: cs => by simp only [rebuilds, rebuild_id c, rebuilds_id cs]
end

/-- Objects that correspond have the same attributes. -/
structure Via (ρ : Nat → Nat) (P : Nat → Prop) (st st' : Store α κ) : Prop where
  inj : ∀ o o', P o → P o' → ρ o = ρ o' → o = o'
  owner : ∀ o, P o → st'.owner (ρ o) = st.owner o
  sat : ∀ o, P o → ∀ i, st'.sat (ρ o) i = st.sat o i

theorem Via.bump {st st' : Store α κ} (h : Via ρ P st st') {o : Nat} (ho : P o) (i : Option κ) :
    Via ρ P (st.bumpSat o i) (st'.bumpSat (ρ o) i) := by
  refine ⟨h.inj, h.owner, fun x hx j => ?_⟩
  have e : ρ x = ρ o ↔ x = o := ⟨h.inj x o hx ho, fun e => by rw [e]⟩
  simp only [Store.bumpSat, e]
  rw [h.sat x hx]

theorem Via.put {st st' : Store α κ} (h : Via ρ P st st') {o : Nat} (ho : P o) (n : Option α) :
    Via ρ P (st.putOwner o n) (st'.putOwner (ρ o) n) := by
  refine ⟨h.inj, fun x hx => ?_, h.sat⟩
  have e : ρ x = ρ o ↔ x = o := ⟨h.inj x o hx ho, fun e => by rw [e]⟩
  simp only [Store.putOwner, e]
  rw [h.owner x hx]

mutual
theorem setOwner_rebuild (v : Option α) : ∀ (c : Cond α κ W) (st st' : Store α κ),
    (∀ o, Occurs o c → P o) → Via ρ P st st' → Via ρ P (setOwner v c st) (setOwner v (c.rebuild ρ) st')
  | .leaf x _, st, st', hp, h => h.put (hp x rfl) v
  | .whileNot x _, st, st', hp, h => h.put (hp x rfl) v
  | .all x args, st, st', hp, h =>
    setOwners_rebuild v args _ _ (fun o k => hp o (.inr k)) (h.put (hp x (.inl rfl)) v)
  | .any x args, st, st', hp, h =>
    setOwners_rebuild v args _ _ (fun o k => hp o (.inr k)) (h.put (hp x (.inl rfl)) v)
  | .not x c, st, st', hp, h =>
    setOwner_rebuild v c _ _ (fun o k => hp o (.inr k)) (h.put (hp x (.inl rfl)) v)
  | .nwhen x c _, st, st', hp, h =>
    setOwner_rebuild v c _ _ (fun o k => hp o (.inr k)) (h.put (hp x (.inl rfl)) v)
theorem setOwners_rebuild (v : Option α) : ∀ (cs : List (Cond α κ W)) (st st' : Store α κ),
    (∀ o, OccursAny o cs → P o) → Via ρ P st st' →
    Via ρ P (setOwners v cs st) (setOwners v (rebuilds ρ cs) st')
  | [], st, st', _, h => h
  | c :: cs, st, st', hp, h => by
    simp only [rebuilds, setOwners]
    rw [rebuild_oid, h.owner _ (hp _ (.inl (occurs_oid c)))]
    cases st.owner c.oid with
    | none =>
      exact setOwners_rebuild v cs _ _ (fun o k => hp o (.inr k))
        (setOwner_rebuild v c _ _ (fun o k => hp o (.inl k)) h)
    | some _ => exact setOwners_rebuild v cs _ _ (fun o k => hp o (.inr k)) h
end

/-- Corresponding results of an evaluation. -/
def ViaRes (ρ : Nat → Nat) (P : Nat → Prop) (r r' : EvalResult α κ) : Prop :=
  r'.1 = r.1 ∧ Via ρ P r.2 r'.2

theorem ViaRes.nwhen {r r' : EvalResult α κ} (h : ViaRes ρ P r r') {o : Nat} (ho : P o)
    (i : Option κ) : ViaRes ρ P (nwhenResult o i r) (nwhenResult (ρ o) i r') := by
  obtain ⟨r1, st1⟩ := r
  obtain ⟨r2, st2⟩ := r'
  obtain ⟨h1, h2⟩ := h
  dsimp only at h1 h2
  subst h1
  rcases r2 with e | b
  · exact ⟨rfl, h2⟩
  · cases b
    · exact ⟨rfl, h2⟩
    · exact ⟨rfl, h2.bump ho i⟩

mutual
theorem eval_rebuild (v : View α κ W) (id : Option κ) :
    ∀ (c : Cond α κ W) (st st' : Store α κ), (∀ o, Occurs o c → P o) → Via ρ P st st' →
    ViaRes ρ P (eval v id c st) (eval v id (c.rebuild ρ) st')
  | .leaf x k, st, st', hp, h => by
    simp only [Cond.rebuild, eval]; rw [h.owner x (hp x rfl)]; exact ⟨rfl, h⟩
  | .whileNot x f, st, st', hp, h => by
    simp only [Cond.rebuild, eval]; rw [h.owner x (hp x rfl)]; exact ⟨rfl, h⟩
  | .all x args, st, st', hp, h =>
    evalAll_rebuild v id args st st' (fun o ho => hp o (.inr ho)) h
  | .any x args, st, st', hp, h =>
    evalAny_rebuild v id args st st' (fun o ho => hp o (.inr ho)) h
  | .not x c, st, st', hp, h => by
    have k := eval_rebuild v id c st st' (fun o ho => hp o (.inr ho)) h
    simp only [Cond.rebuild, eval]
    exact ⟨by rw [k.1], k.2⟩
  | .nwhen x c n, st, st', hp, h => by
    have k := eval_rebuild v id c st st' (fun o ho => hp o (.inr ho)) h
    simp only [Cond.rebuild, eval]
    rw [h.sat x (hp x (.inl rfl)) id]
    split
    · exact k.nwhen (hp x (.inl rfl)) id
    · exact ⟨rfl, h⟩
theorem evalAll_rebuild (v : View α κ W) (id : Option κ) :
    ∀ (cs : List (Cond α κ W)) (st st' : Store α κ), (∀ o, OccursAny o cs → P o) →
    Via ρ P st st' → ViaRes ρ P (evalAll v id cs st) (evalAll v id (rebuilds ρ cs) st')
  | [], st, st', _, h => ⟨rfl, h⟩
  | c :: cs, st, st', hp, h => by
    have k := eval_rebuild v id c st st' (fun o ho => hp o (.inl ho)) h
    simp only [rebuilds, evalAll]
    generalize eval v id c st = r at k ⊢
    generalize eval v id (c.rebuild ρ) st' = r' at k ⊢
    obtain ⟨r1, st1⟩ := r
    obtain ⟨r2, st2⟩ := r'
    obtain ⟨k1, k2⟩ := k
    dsimp only at k1 k2
    subst k1
    rcases r2 with e | b
    · exact ⟨rfl, k2⟩
    · cases b
      · exact ⟨rfl, k2⟩
      · exact evalAll_rebuild v id cs st1 st2 (fun o ho => hp o (.inr ho)) k2
theorem evalAny_rebuild (v : View α κ W) (id : Option κ) :
    ∀ (cs : List (Cond α κ W)) (st st' : Store α κ), (∀ o, OccursAny o cs → P o) →
    Via ρ P st st' → ViaRes ρ P (evalAny v id cs st) (evalAny v id (rebuilds ρ cs) st')
  | [], st, st', _, h => ⟨rfl, h⟩
  | c :: cs, st, st', hp, h => by
    have k := eval_rebuild v id c st st' (fun o ho => hp o (.inl ho)) h
    simp only [rebuilds, evalAny]
    generalize eval v id c st = r at k ⊢
    generalize eval v id (c.rebuild ρ) st' = r' at k ⊢
    obtain ⟨r1, st1⟩ := r
    obtain ⟨r2, st2⟩ := r'
    obtain ⟨k1, k2⟩ := k
    dsimp only at k1 k2
    subst k1
    rcases r2 with e | b
    · exact ⟨rfl, k2⟩
    · cases b
      · exact evalAny_rebuild v id cs st1 st2 (fun o ho => hp o (.inr ho)) k2
      · exact ⟨rfl, k2⟩
end

mutual
theorem isAbsolute_rebuild : ∀ (c : Cond α κ W), (c.rebuild ρ).isAbsolute = c.isAbsolute
  | .leaf _ _ => rfl
  | .whileNot _ _ => rfl
  | .all _ args => by simp only [Cond.rebuild, Cond.isAbsolute, isAbsolutes_rebuild args]
  | .any _ args => by simp only [Cond.rebuild, Cond.isAbsolute, isAbsolutes_rebuild args]
  | .not _ _ => rfl
  | .nwhen _ _ _ => rfl
theorem isAbsolutes_rebuild : ∀ (cs : List (Cond α κ W)), anyAbsolute (rebuilds ρ cs) = anyAbsolute cs
  | [] => rfl
  | c :: cs => by simp only [rebuilds, anyAbsolute, isAbsolute_rebuild c, isAbsolutes_rebuild cs]
end

mutual
theorem intervals_rebuild : ∀ (c : Cond α κ W), (c.rebuild ρ).intervals = c.intervals
  | .leaf _ _ => rfl
  | .whileNot _ _ => rfl
  | .all _ args => by simp only [Cond.rebuild, Cond.intervals, intervalsOf_rebuild args]
  | .any _ args => by simp only [Cond.rebuild, Cond.intervals, intervalsOf_rebuild args]
  | .not _ _ => rfl
  | .nwhen _ _ _ => rfl
theorem intervalsOf_rebuild : ∀ (cs : List (Cond α κ W)), intervalsOf (rebuilds ρ cs) = intervalsOf cs
  | [] => rfl
  | c :: cs => by
    simp only [rebuilds, intervalsOf, isAbsolute_rebuild c, intervals_rebuild c, intervalsOf_rebuild cs]
end

mutual
theorem fixedPoints_rebuild : ∀ (c : Cond α κ W), (c.rebuild ρ).fixedPoints = c.fixedPoints
  | .leaf _ _ => rfl
  | .whileNot _ _ => rfl
  | .all _ args => by simp only [Cond.rebuild, Cond.fixedPoints, fixedPointsOf_rebuild args]
  | .any _ args => by simp only [Cond.rebuild, Cond.fixedPoints, fixedPointsOf_rebuild args]
  | .not _ _ => rfl
  | .nwhen _ _ _ => rfl
theorem fixedPointsOf_rebuild : ∀ (cs : List (Cond α κ W)),
    fixedPointsOf (rebuilds ρ cs) = fixedPointsOf cs
  | [] => rfl
  | c :: cs => by
    simp only [rebuilds, fixedPointsOf, isAbsolute_rebuild c, fixedPoints_rebuild c,
      fixedPointsOf_rebuild cs]
end

/-- Corresponding conditions. -/
def Rebuilt (ρ : Nat → Nat) (P : Nat → Prop) (c c' : Cond α κ W) : Prop :=
  c' = c.rebuild ρ ∧ ∀ o, Occurs o c → P o

/-- Corresponding schedulers. -/
structure Mirror (ρ : Nat → Nat) (P : Nat → Prop) (s s' : Sys α κ W) : Prop where
  eq : s' = s.recond s'.conds s'.store
  via : Via ρ P s.store s'.store
  conds : Pairwise2 (Rebuilt ρ P) s.conds s'.conds

/-- Corresponding results. -/
def Mirrors {β : Type _} (ρ : Nat → Nat) (P : Nat → Prop) (x y : Sys α κ W × β) : Prop :=
  y.2 = x.2 ∧ Mirror ρ P x.1 y.1

theorem Mirror.view (h : Mirror ρ P s s') : s'.toView = s.toView := by rw [h.eq]; rfl

/-- A change that does not concern conditions. -/
theorem Mirror.change (h : Mirror ρ P s s') {t : Sys α κ W} (h1 : t.conds = s.conds)
    (h2 : t.store = s.store) : Mirror ρ P t (t.recond s'.conds s'.store) :=
  ⟨rfl, by rw [h2]; exact h.via, by rw [h1]; exact h.conds⟩

theorem Mirror.evalCond (h : Mirror ρ P s s') {c c' : Cond α κ W} (hc : Rebuilt ρ P c c')
    (id : Option κ) : Mirrors ρ P (s.evalCond id c) (s'.evalCond id c') := by
  obtain ⟨rfl, hc⟩ := hc
  obtain ⟨h1, h2⟩ := eval_rebuild s.toView id c s.store s'.store hc h.via
  unfold Sys.evalCond
  rw [h.view]
  refine ⟨h1, ?_, h2, h.conds⟩
  conv => lhs; rw [h.eq]
  rfl

/-- The arguments of corresponding runs. -/
structure MirrorArgs (ρ : Nat → Nat) (P : Nat → Prop) (a a' : RunArgs α κ W) : Prop where
  id : a'.id = a.id
  base : a'.base = a.base
  skip : a'.skip = a.skip
  esu : Rebuilt ρ P a.esu a'.esu
  seq : Rebuilt ρ P a.seq a'.seq
  others : Listwise (Rebuilt ρ P) a.others a'.others

/-- Functions that do not concern conditions, on corresponding schedulers. -/
def MirrorE (ρ : Nat → Nat) (P : Nat → Prop) : Except Err (Sys α κ W) → Except Err (Sys α κ W) → Prop
  | .ok s, .ok s' => Mirror ρ P s s'
  | .error e, .error e' => e' = e
  | _, _ => False

theorem Mirror.mapped (h : Mirror ρ P s s') {f : Sys α κ W → Except Err (Sys α κ W)}
    (hf : ∀ d st s, f (s.recond d st) = (f s).map fun s => s.recond d st)
    (h1 : ∀ t, f s = .ok t → t.conds = s.conds ∧ t.store = s.store) :
    MirrorE ρ P (f s) (f s') := by
  have e := h.eq
  have e1 := hf s'.conds s'.store s
  rw [← e] at e1
  rw [e1]
  cases hs : f s with
  | error e => exact rfl
  | ok t => exact h.change (h1 t hs).1 (h1 t hs).2

theorem Mirror.incrClock (h : Mirror ρ P s s') (id ts) :
    MirrorE ρ P (s.incrClock id ts) (s'.incrClock id ts) :=
  h.mapped (f := fun s => s.incrClock id ts) (fun d st s => Sys.incrClock_recond d st s id ts) fun _ ht => Sys.incrClock_conds ht

theorem Mirror.resetTotal (h : Mirror ρ P s s') (id ts) :
    MirrorE ρ P (s.resetTotal ts id) (s'.resetTotal ts id) :=
  h.mapped (f := fun s => s.resetTotal ts id) (fun d st s => Sys.resetTotal_recond d st s ts id) fun _ ht => Sys.resetTotal_conds ht

theorem Mirror.fire (h : Mirror ρ P s s') (id n) :
    MirrorE ρ P (s.fire id n) (s'.fire id n) :=
  h.mapped (f := fun s => s.fire id n) (fun d st s => Sys.fire_recond d st s id n) fun _ ht => Sys.fire_conds ht

theorem Mirror.record (h : Mirror ρ P s s') (id abs set) :
    Mirrors ρ P (s.record id abs set) (s'.record id abs set) := by
  have e1 := Sys.record_recond s'.conds s'.store s id abs set
  rw [← h.eq] at e1
  rw [e1]
  exact ⟨rfl, h.change (Sys.record_conds s id abs set).1 (Sys.record_conds s id abs set).2⟩

theorem Mirror.continues (h : Mirror ρ P s s') (ha : MirrorArgs ρ P a a') :
    Mirrors ρ P (s.continues a) (s'.continues a') := by
  have h1 := h.evalCond ha.esu a.id
  unfold Sys.continues
  rw [ha.id]
  rcases e : s.evalCond a.id a.esu with ⟨t, r⟩
  rcases e' : s'.evalCond a.id a'.esu with ⟨t', r'⟩
  rw [e, e'] at h1
  obtain ⟨h2, h3⟩ := h1
  dsimp only at h2 h3
  subst h2
  rcases r' with x | x
  · exact ⟨rfl, h3⟩
  · cases x
    · have h4 := h3.evalCond ha.seq a.id
      dsimp only
      rcases f : t.evalCond a.id a.seq with ⟨u, q⟩
      rcases f' : t'.evalCond a.id a'.seq with ⟨u', q'⟩
      rw [f, f'] at h4
      obtain ⟨h5, h6⟩ := h4
      dsimp only at h5 h6
      subst h5
      rcases q' with x | x <;> exact ⟨rfl, h6⟩
    · exact ⟨rfl, h3⟩

theorem Mirror.considerNode (h : Mirror ρ P s s') (id : Option κ) (n : α) :
    Mirrors ρ P (s.considerNode id n) (s'.considerNode id n) := by
  unfold Sys.considerNode
  rcases h.conds.get n with ⟨h1, h2⟩ | ⟨c, c', h1, h2, h3⟩
  · rw [h1, h2]; exact ⟨rfl, h⟩
  · rw [h1, h2]
    dsimp only
    have k := h.evalCond h3 id
    rcases e : s.evalCond id c with ⟨t, r⟩
    rcases e' : s'.evalCond id c' with ⟨t', r'⟩
    rw [e, e'] at k
    obtain ⟨k1, k2⟩ := k
    dsimp only at k1 k2
    subst k1
    rcases r' with x | x
    · exact ⟨rfl, k2⟩
    · cases x
      · exact ⟨rfl, k2⟩
      · have k3 := k2.fire id n
        dsimp only
        rcases f : t.fire id n with x | u <;> rcases f' : t'.fire id n with x' | u' <;>
          rw [f, f'] at k3
        · cases k3; exact ⟨rfl, k2⟩
        · exact k3.elim
        · exact k3.elim
        · exact ⟨rfl, k3⟩

theorem Mirror.endPass (h : Mirror ρ P s s') (ha : MirrorArgs ρ P a a') (abs changed : Bool) :
    Mirrors ρ P (s.endPass a abs changed) (s'.endPass a' abs changed) := by
  unfold Sys.endPass
  rw [ha.id]
  split
  · have k := h.record a.id false []
    rcases e : s.record a.id false [] with ⟨t, r⟩
    rcases e' : s'.record a.id false [] with ⟨t', r'⟩
    rw [e, e'] at k
    obtain ⟨k1, k2⟩ := k
    dsimp only at k1 k2
    subst k1
    rcases r' with _ | x <;> exact ⟨rfl, k2⟩
  · have k3 := h.incrClock a.id .pass
    rcases f : s.incrClock a.id .pass with x | u <;> rcases f' : s'.incrClock a.id .pass with x' | u' <;>
      rw [f, f'] at k3
    · cases k3; exact ⟨rfl, h⟩
    · exact k3.elim
    · exact k3.elim
    · exact ⟨rfl, k3⟩

theorem Mirror.endChoice (h : Mirror ρ P s s') (ha : MirrorArgs ρ P a a') (abs : Bool) (c : Choice α) :
    Mirrors ρ P (s.endChoice a abs c) (s'.endChoice a' abs c) := by
  unfold Sys.endChoice
  rw [ha.id]
  dsimp only
  split
  · have k := h.record a.id abs c.exec
    rcases e : s.record a.id abs c.exec with ⟨t, r⟩
    rcases e' : s'.record a.id abs c.exec with ⟨t', r'⟩
    rw [e, e'] at k
    obtain ⟨k1, k2⟩ := k
    dsimp only at k1 k2
    subst k1
    rcases r' with _ | x <;> exact ⟨rfl, k2⟩
  · exact ⟨rfl, h⟩

theorem Mirror.choose (h : Mirror ρ P s s') (ha : MirrorArgs ρ P a a') (abs : Bool) (c : Choice α) :
    Mirrors ρ P (s.choose a abs c) (s'.choose a' abs c) := by
  unfold Sys.choose
  split
  · split
    · exact ⟨rfl, h⟩
    · exact h.endChoice ha abs c
  · rename_i n ns _
    split
    · exact ⟨rfl, h⟩
    · rw [ha.id]
      have k := h.considerNode a.id n
      rcases e : s.considerNode a.id n with ⟨t, r⟩
      rcases e' : s'.considerNode a.id n with ⟨t', r'⟩
      rw [e, e'] at k
      obtain ⟨k1, k2⟩ := k
      dsimp only at k1 k2
      subst k1
      rcases r' with x | x
      · exact ⟨rfl, k2⟩
      · cases x <;> exact ⟨rfl, k2⟩

theorem Mirror.finish (h : Mirror ρ P s s') (ha : MirrorArgs ρ P a a') :
    Mirrors ρ P (s.finish a) (s'.finish a') := by
  have k : MirrorE ρ P (if a.skip then .ok s else s.incrClock a.id .environment_state_update)
      (if a.skip then .ok s' else s'.incrClock a.id .environment_state_update) := by
    split
    · exact h
    · exact h.incrClock _ _
  unfold Sys.finish
  rw [ha.id, ha.skip]
  rcases f : (if a.skip then .ok s else s.incrClock a.id .environment_state_update :
      Except Err (Sys α κ W)) with x | u <;>
    rcases f' : (if a.skip then .ok s' else s'.incrClock a.id .environment_state_update :
      Except Err (Sys α κ W)) with x' | u' <;>
      rw [f, f'] at k
  · cases k; exact ⟨rfl, h⟩
  · exact k.elim
  · exact k.elim
  · dsimp only
    have k1 := Mirror.evalCond k ha.seq a.id
    rcases e : u.evalCond a.id a.seq with ⟨t, r⟩
    rcases e' : u'.evalCond a.id a'.seq with ⟨t', r'⟩
    rw [e, e'] at k1
    obtain ⟨k1, k2⟩ := k1
    dsimp only at k1 k2
    subst k1
    rcases r' with x | x <;> exact ⟨rfl, k2⟩

theorem Mirror.step (h : Mirror ρ P s s') (ha : MirrorArgs ρ P a a') (abs : Bool) (pc : PC α) :
    Mirrors ρ P (s.step a abs pc) (s'.step a' abs pc) := by
  cases pc with
  | outer =>
    have k := h.continues ha
    simp only [Sys.step]
    rw [ha.id]
    rcases e : s.continues a with ⟨t, r⟩
    rcases e' : s'.continues a' with ⟨t', r'⟩
    rw [e, e'] at k
    obtain ⟨k1, k2⟩ := k
    dsimp only at k1 k2
    subst k1
    rcases r' with x | x
    · exact ⟨rfl, k2⟩
    · cases x
      · exact k2.finish ha
      · have k3 := k2.resetTotal a.id .pass
        dsimp only
        rcases f : t.resetTotal .pass a.id with x | u <;>
          rcases f' : t'.resetTotal .pass a.id with x' | u' <;> rw [f, f'] at k3
        · cases k3; exact ⟨rfl, k2⟩
        · exact k3.elim
        · exact k3.elim
        · exact ⟨rfl, k3⟩
  | inner idx changed =>
    have hq : s'.queue = s.queue := congrArg View.queue h.view
    simp only [Sys.step]
    rw [hq]
    cases s.queue[idx]? with
    | none => exact h.endPass ha abs changed
    | some layer =>
      dsimp only
      have k := h.continues ha
      rcases e : s.continues a with ⟨t, r⟩
      rcases e' : s'.continues a' with ⟨t', r'⟩
      rw [e, e'] at k
      obtain ⟨k1, k2⟩ := k
      dsimp only at k1 k2
      subst k1
      rcases r' with x | x
      · exact ⟨rfl, k2⟩
      · cases x
        · exact k2.endPass ha abs changed
        · exact ⟨rfl, k2⟩
  | choosing c => exact h.choose ha abs c
  | yielded idx changed =>
    simp only [Sys.step]
    rw [ha.id]
    have k3 := h.incrClock a.id .consideration_set_execution
    rcases f : s.incrClock a.id .consideration_set_execution with x | u <;>
      rcases f' : s'.incrClock a.id .consideration_set_execution with x' | u' <;> rw [f, f'] at k3
    · cases k3; exact ⟨rfl, h⟩
    · exact k3.elim
    · exact k3.elim
    · exact ⟨rfl, k3⟩
  | yieldedEmpty =>
    simp only [Sys.step]
    rw [ha.id]
    have k3 := h.incrClock a.id .consideration_set_execution
    rcases f : s.incrClock a.id .consideration_set_execution with x | u <;>
      rcases f' : s'.incrClock a.id .consideration_set_execution with x' | u' <;> rw [f, f'] at k3
    · cases k3; exact ⟨rfl, h⟩
    · exact k3.elim
    · exact k3.elim
    · dsimp only
      have k4 := Mirror.incrClock k3 a.id .pass
      rcases g : u.incrClock a.id .pass with x | y <;>
        rcases g' : u'.incrClock a.id .pass with x' | y' <;> rw [g, g'] at k4
      · cases k4; exact ⟨rfl, k3⟩
      · exact k4.elim
      · exact k4.elim
      · exact ⟨rfl, k4⟩
  | returned => exact ⟨rfl, h⟩
  | raised e => exact ⟨rfl, h⟩

theorem Rebuilt.times {cs cs' : List (Cond α κ W)} (h : Listwise (Rebuilt ρ P) cs cs') :
    SameTimes (cs.filter Cond.isAbsolute) (cs'.filter Cond.isAbsolute) := by
  induction h with
  | nil => exact .nil
  | @cons c c' l l' h _ ih =>
    obtain ⟨rfl, _⟩ := h
    have e := isAbsolute_rebuild (ρ := ρ) c
    by_cases hc : c.isAbsolute = true
    · rw [List.filter_cons_of_pos hc, List.filter_cons_of_pos (by rw [e]; exact hc)]
      refine .cons ⟨?_, ?_⟩ ih
      · rw [intervals_rebuild]; exact fun _ => Iff.rfl
      · rw [fixedPoints_rebuild]; exact fun _ => Iff.rfl
    · rw [List.filter_cons_of_neg hc, List.filter_cons_of_neg (by rw [e]; exact hc)]
      exact ih

theorem Mirror.setupAbsolute (h : Mirror ρ P s s') (ha : MirrorArgs ρ P a a') :
    Mirrors ρ P (s.setupAbsolute a) (s'.setupAbsolute a') := by
  have hl : SameTimes (s.absoluteConds a) (s'.absoluteConds a') := by
    unfold Sys.absoluteConds
    exact Rebuilt.times (h.conds.values.append (.cons ha.seq (.cons ha.esu ha.others)))
  have hn : s'.absoluteConds a' = [] ↔ s.absoluteConds a = [] := by
    generalize s'.absoluteConds a' = y at hl ⊢
    generalize s.absoluteConds a = x at hl ⊢
    cases hl <;> simp
  have hc : s'.clock a.id = s.clock a.id := by
    show s'.toView.clock _ = _; rw [h.view]
  have hu : ∀ cs, s'.absoluteUnit cs = s.absoluteUnit cs := by
    intro cs; rw [h.eq]; rfl
  have hset : ∀ c, Mirror ρ P (s.setClock a.id c) (s'.setClock a.id c) := by
    intro c
    have e : s'.setClock a.id c = (s.setClock a.id c).recond s'.conds s'.store := by
      conv => lhs; rw [h.eq]
      rfl
    rw [e]; exact h.change rfl rfl
  unfold Sys.setupAbsolute
  dsimp only
  rw [ha.id, hc, hu, SameTimes.unit hl, SameTimes.advance hl]
  by_cases k : s.absoluteConds a = []
  · rw [if_pos k, if_pos (hn.mpr k)]
    exact ⟨rfl, hset _⟩
  · rw [if_neg k, if_neg (fun x => k (hn.mp x))]
    cases s.absoluteUnit (s.absoluteConds a) with
    | error e => exact ⟨rfl, h⟩
    | ok u => exact ⟨rfl, hset _⟩

theorem Mirror.getClock (h : Mirror ρ P s s') (id : Option κ) :
    Mirror ρ P (s.getClock id) (s'.getClock id) := by
  have e1 := Sys.getClock_recond s'.conds s'.store s id
  rw [← h.eq] at e1
  rw [e1]
  refine h.change ?_ ?_ <;> (unfold Sys.getClock; cases Dict.get? s.clocks id <;> rfl)

theorem Mirror.initCounts (h : Mirror ρ P s s') (id base) :
    Mirrors ρ P (s.initCounts id base) (s'.initCounts id base) := by
  have e1 := Sys.initCounts_recond s'.conds s'.store s id base
  rw [← h.eq] at e1
  rw [e1]
  exact ⟨rfl, h.change (Sys.initCounts_conds s id base).1 (Sys.initCounts_conds s id base).2⟩


end GS

import Verif.Touch
import Verif.Spec.Together
/-!
# Lemmas: several schedulers in one program
-/

set_option linter.unusedSectionVars false

namespace GS
open Spec
variable {α κ W : Type _} [DecidableEq α] [DecidableEq κ] {ι : Type _} [DecidableEq ι]
variable {ρ : Nat → Nat} {P Q : Nat → Prop}

/-! ## What is done with a scheduler concerns its own objects -/

theorem Dict.mem_set' {β : Type _} (d : Dict α β) (n : α) (x : β) (m : α) (y : β)
    (h : (m, y) ∈ Dict.set d n x) : (m, y) ∈ d ∨ y = x := by
  induction d with
  | nil =>
    simp only [Dict.set, List.mem_singleton, Prod.mk.injEq] at h
    exact .inr h.2
  | cons p d ih =>
    obtain ⟨k, z⟩ := p
    simp only [Dict.set] at h
    split at h
    · rcases List.mem_cons.mp h with h | h
      · exact .inr (Prod.mk.inj h).2
      · exact .inl (List.mem_cons_of_mem _ h)
    · rcases List.mem_cons.mp h with h | h
      · exact .inl (h ▸ List.mem_cons_self)
      · rcases ih h with h | h
        · exact .inl (List.mem_cons_of_mem _ h)
        · exact .inr h

theorem Dict.mem_of_get?' {β : Type _} {d : Dict α β} {n : α} {x : β} (h : Dict.get? d n = some x) :
    (n, x) ∈ d := by
  induction d with
  | nil => cases h
  | cons p d ih =>
    obtain ⟨k, z⟩ := p
    simp only [Dict.get?] at h
    split at h
    · rename_i e; cases h; exact e ▸ List.mem_cons_self
    · exact List.mem_cons_of_mem _ (ih h)

/-- The conditions of the scheduler are made of objects in `Q`. -/
def CondsIn (Q : Nat → Prop) (s : Sys α κ W) : Prop := ∀ n c, (n, c) ∈ s.conds → ∀ o, Occurs o c → Q o

/-- A change by which only objects of `Q` change, and perhaps objects are made. -/
structure Local (Q : Nat → Prop) (s t : Sys α κ W) : Prop where
  fresh : s.store.fresh ≤ t.store.fresh
  out : SameOn (fun o => ¬ Q o ∧ o < s.store.fresh) s.store t.store
  inside : CondsIn (fun o => Q o ∨ s.store.fresh ≤ o ∧ o < t.store.fresh) t

theorem Local.refl {s : Sys α κ W} (h : CondsIn Q s) : Local Q s s :=
  ⟨Nat.le_refl _, .refl _ _, fun n c hc o ho => .inl (h n c hc o ho)⟩

theorem Local.trans {s t u : Sys α κ W} (h : Local Q s t)
    (k : Local (fun o => Q o ∨ s.store.fresh ≤ o ∧ o < t.store.fresh) t u) : Local Q s u := by
  have h1 := h.fresh
  have h2 := k.fresh
  refine ⟨by omega, ?_, ?_⟩
  · refine h.out.trans (k.out.mono fun o ho => ⟨fun hx => ?_, by omega⟩)
    rcases hx with hx | hx
    · exact ho.1 hx
    · omega
  · intro n c hc o ho
    rcases k.inside n c hc o ho with (hx | hx) | hx
    · exact .inl hx
    · exact .inr ⟨hx.1, by omega⟩
    · exact .inr ⟨by omega, hx.2⟩

theorem Local.alloc {s : Sys α κ W} (h : CondsIn Q s) (k : Nat) : Local Q s (s.alloc k) := by
  refine ⟨Nat.le_add_right _ _, fun o ho => ⟨?_, fun i => ?_⟩, fun n c hc o ho => .inl (h n c hc o ho)⟩
  · show (if _ then _ else _) = _; rw [if_neg (by omega)]
  · show (if _ then _ else _) = _; rw [if_neg (by omega)]

theorem Local.addBasic {s : Sys α κ W} (h : CondsIn Q s) (n : α) {c : Cond α κ W}
    (hc : ∀ o, Occurs o c → Q o) : Local Q s (s.addBasic n c) := by
  refine ⟨?_, ?_, ?_⟩
  · rw [Sys.addBasic_fresh]; exact Nat.le_refl _
  · exact setOwner_outside (some n) _ c s.store fun o ho k => k.1 (hc o ho)
  · intro m x hx o ho
    rcases Dict.mem_set' _ _ _ _ _ hx with hx | rfl
    · exact .inl (h m x hx o ho)
    · exact .inl (hc o ho)

theorem Local.removeBasic {s : Sys α κ W} (h : CondsIn Q s) (n : α) : Local Q s (s.removeBasic n) := by
  refine ⟨?_, ?_, ?_⟩
  · rw [Sys.removeBasic_fresh]; exact Nat.le_refl _
  · unfold Sys.removeBasic
    cases e : Dict.get? s.conds n with
    | none => exact .refl _ _
    | some c =>
      exact setOwner_outside none _ c s.store fun o ho k => k.1 (h n c (Dict.mem_of_get?' e) o ho)
  · unfold Sys.removeBasic
    cases e : Dict.get? s.conds n with
    | none => exact fun m x hx o ho => .inl (h m x hx o ho)
    | some c => exact fun m x hx o ho => .inl (h m x (Dict.mem_erase' _ _ _ _ hx) o ho)

theorem Local.validateConditions : ∀ (ns : List α) (Q : Nat → Prop) (s : Sys α κ W), CondsIn Q s →
    Local Q s (Sys.validateConditions ns s).1
  | [], Q, s, h => .refl h
  | n :: ns, Q, s, h => by
    simp only [Sys.validateConditions]
    cases Dict.get? s.conds n with
    | some _ => exact Local.validateConditions ns Q s h
    | none =>
      dsimp only
      cases Dict.get? s.graph n with
      | none => exact .refl h
      | some deps =>
        dsimp only
        have k1 := Local.alloc h (deps.length + 1)
        have k2 := Local.addBasic k1.inside n (c := Sys.defaultCond s.store.fresh deps)
          (fun o ho => .inr (defaultCond_occurs _ _ o ho))
        have k3 := k1.trans k2
        exact k3.trans (Local.validateConditions ns _ _ k3.inside)

theorem Sys.start_conds (s : Sys α κ W) (a : RunArgs α κ W) :
    (s.start a).1.conds = s.validateRunState.1.conds := by
  unfold Sys.start
  rcases hv : s.validateRunState with ⟨s1, _ | e⟩
  · dsimp only
    have g : (s1.getClock a.id).conds = s1.conds := by
      unfold Sys.getClock; cases Dict.get? s1.clocks a.id <;> rfl
    have g2 : ((s1.getClock a.id).setupAbsolute a).1.conds = s1.conds := by
      unfold Sys.setupAbsolute
      dsimp only
      split
      · exact g
      · cases (s1.getClock a.id).absoluteUnit ((s1.getClock a.id).absoluteConds a) <;> exact g
    rcases h2 : (s1.getClock a.id).setupAbsolute a with ⟨s2, e | ab⟩
    · rw [h2] at g2; exact g2
    · rw [h2] at g2
      dsimp only at g2 ⊢
      have g3 := (Sys.initCounts_conds s2 a.id a.base).1
      rcases h3 : s2.initCounts a.id a.base with ⟨s3, _ | e⟩
      · rw [h3] at g3
        dsimp only at g3 ⊢
        cases h4 : (s3.resetUseable a.id).resetTotal .environment_state_update a.id with
        | error e => exact g3.trans g2
        | ok u => exact (Sys.resetTotal_conds h4).1.trans (g3.trans g2)
      · rw [h3] at g3; exact g3.trans g2
  · rfl

theorem Local.start {s : Sys α κ W} (h : CondsIn Q s) (a : RunArgs α κ W) :
    Local Q s (s.start a).1 := by
  have hv : Local Q s s.validateRunState.1 := by
    unfold Sys.validateRunState
    cases toposort s.graph with
    | error e => exact .refl h
    | ok _ => exact Local.validateConditions s.nodes Q s h
  have e1 := Sys.start_storeOf s a
  have e2 := Sys.start_conds s a
  refine ⟨by rw [e1]; exact hv.fresh, by rw [e1]; exact hv.out, ?_⟩
  unfold CondsIn
  rw [e1, e2]
  exact hv.inside

theorem Local.step {s : Sys α κ W} (h : CondsIn Q s) {a : RunArgs α κ W} (ha : ∀ o, ArgsUse a o → Q o)
    (abs : Bool) (pc : PC α) : Local Q s (s.step a abs pc).1 := by
  have k := Sys.step_touches (Q := Q) (fun n c hc => h n c (Dict.mem_of_get?' hc))
    (fun o ho => ha o (.inl ho)) (fun o ho => ha o (.inr (.inl ho))) abs pc
  refine ⟨by rw [k.fresh]; exact Nat.le_refl _, k.out.mono fun o ho => ho.1, ?_⟩
  intro n c hc o ho
  rw [k.conds] at hc
  exact .inl (h n c hc o ho)

/-- What is done with a scheduler concerns its own objects, and new ones. -/
theorem Spec.Seat.act_local {u : Seat α κ W} {x : Deed α κ W} (hu : ∀ o, SeatUse u o → Q o)
    (hx : ∀ o, DeedUse x o → Q o) :
    Local Q u.sys (u.act x).sys ∧
    ∀ o, SeatUse (u.act x) o → Q o ∨ u.sys.store.fresh ≤ o ∧ o < (u.act x).sys.store.fresh := by
  have hc : CondsIn Q u.sys := fun n c h o ho => hu o (.inl ⟨n, c, h, ho⟩)
  have key : ∀ v : Seat α κ W, Local Q u.sys v.sys →
      (∀ g ∈ v.gens, ∀ o, ArgsUse g.args o → Q o) →
      Local Q u.sys v.sys ∧
      ∀ o, SeatUse v o → Q o ∨ u.sys.store.fresh ≤ o ∧ o < v.sys.store.fresh := by
    intro v h1 h2
    refine ⟨h1, ?_⟩
    rintro o (⟨n, c, h, ho⟩ | ⟨g, hg, ho⟩)
    · exact h1.inside n c h o ho
    · exact .inl (h2 g hg o ho)
  have hg : ∀ g ∈ u.gens, ∀ o, ArgsUse g.args o → Q o := fun g h o ho => hu o (.inr ⟨g, h, ho⟩)
  cases x with
  | add n c => exact key _ (Local.addBasic hc n hx) hg
  | remove n => exact key _ (Local.removeBasic hc n) hg
  | run a =>
    have k := Local.start hc a
    unfold Seat.act
    dsimp only
    rcases e : u.sys.start a with ⟨s, er | abs⟩
    · rw [e] at k; exact key _ k hg
    · rw [e] at k
      refine key _ k ?_
      intro g h o ho
      rcases List.mem_append.mp h with h | h
      · exact hg g h o ho
      · rw [List.mem_singleton.mp h] at ho; exact hx o ho
  | next k =>
    unfold Seat.act
    dsimp only
    cases e : u.gens[k]? with
    | none => exact key _ (.refl hc) hg
    | some g =>
      have hm : g ∈ u.gens := List.mem_of_getElem? e
      dsimp only
      have k := Local.step hc (hg g hm) g.abs g.pc
      rcases f : u.sys.step g.args g.abs g.pc with ⟨s, pc, ev⟩
      rw [f] at k
      refine key ⟨s, _, _⟩ k ?_
      intro g' h o ho
      rcases List.mem_or_eq_of_mem_set h with h | rfl
      · exact hg g' h o ho
      · exact hg g hm o ho
  | other f =>
    refine key _ ?_ hg
    exact ⟨Nat.le_refl _, .refl _ _, fun n c h o ho => .inl (hc n c h o ho)⟩

/-! ## Corresponding things done with corresponding schedulers -/

/-- Corresponding generators. -/
structure MirrorGen (ρ : Nat → Nat) (P : Nat → Prop) (g g' : Gen α κ W) : Prop where
  args : MirrorArgs ρ P g.args g'.args
  abs : g'.abs = g.abs
  pc : g'.pc = g.pc

/-- Corresponding schedulers with their generators. -/
structure MirrorSeat (ρ : Nat → Nat) (P : Nat → Prop) (u u' : Seat α κ W) : Prop where
  sys : Mirror ρ P u.sys u'.sys
  gens : Listwise (MirrorGen ρ P) u.gens u'.gens
  seen : u'.seen = u.seen
  exist : ∀ o, P o → o < u.sys.store.fresh
  exist' : ∀ o, P o → ρ o < u'.sys.store.fresh

theorem Spec.Listwise.get {β : Type _} {R : β → β → Prop} {l l' : List β} (h : Listwise R l l') (k : Nat) :
    (l[k]? = none ∧ l'[k]? = none) ∨ ∃ x y, l[k]? = some x ∧ l'[k]? = some y ∧ R x y := by
  induction h generalizing k with
  | nil => exact .inl ⟨rfl, rfl⟩
  | cons h _ ih =>
    cases k with
    | zero => exact .inr ⟨_, _, rfl, rfl, h⟩
    | succ k => simpa using ih k

theorem Spec.Listwise.set {β : Type _} {R : β → β → Prop} {l l' : List β} (h : Listwise R l l') (k : Nat)
    {x y : β} (hxy : R x y) : Listwise R (l.set k x) (l'.set k y) := by
  induction h generalizing k with
  | nil => exact .nil
  | cons h h' ih =>
    cases k with
    | zero => exact .cons hxy h'
    | succ k => exact .cons h (ih k)

theorem Spec.Pairwise2.erase {β : Type _} {R : β → β → Prop} {d d' : Dict α β}
    (h : Pairwise2 R d d') (n : α) : Pairwise2 R (Dict.erase d n) (Dict.erase d' n) := by
  induction h with
  | nil => exact .nil
  | @cons m x x' d d' h h2 ih =>
    by_cases e : m = n
    · subst e; simp only [Dict.erase, if_true]; exact h2
    · simp only [Dict.erase, if_neg e]; exact .cons h ih

theorem Mirror.removeBasic {s s' : Sys α κ W} (h : Mirror ρ P s s') (n : α) :
    Mirror ρ P (s.removeBasic n) (s'.removeBasic n) := by
  unfold Sys.removeBasic
  rcases h.conds.get n with ⟨h1, h2⟩ | ⟨c, c', h1, h2, h3⟩
  · rw [h1, h2]; exact h
  · rw [h1, h2]
    obtain ⟨rfl, hp⟩ := h3
    refine ⟨?_, setOwner_rebuild none c _ _ hp h.via, h.conds.erase n⟩
    conv => lhs; rw [h.eq]
    rfl

theorem rebuilt_self {c : Cond α κ W} (h : ∀ o, Occurs o c → P o ∧ ρ o = o) : Rebuilt ρ P c c := by
  refine ⟨?_, fun o ho => (h o ho).1⟩
  conv => lhs; rw [← rebuild_id c]
  exact (rebuild_eq c fun o ho => ((h o ho).2)).symm

theorem mirrorArgs_self {a : RunArgs α κ W} (h : ∀ o, ArgsUse a o → P o ∧ ρ o = o) :
    MirrorArgs ρ P a a := by
  refine ⟨rfl, rfl, rfl, rebuilt_self fun o ho => h o (.inl ho),
    rebuilt_self fun o ho => h o (.inr (.inl ho)), ?_⟩
  have : ∀ c ∈ a.others, Rebuilt ρ P c c := fun c hc =>
    rebuilt_self fun o ho => h o (.inr (.inr ⟨c, hc, ho⟩))
  generalize a.others = l at this
  induction l with
  | nil => exact .nil
  | cons c l ih =>
    exact .cons (this c List.mem_cons_self) (ih fun x hx => this x (List.mem_cons_of_mem _ hx))

/-- The same thing done with corresponding schedulers. -/
theorem MirrorSeat.act {u u' : Seat α κ W} (h : MirrorSeat ρ P u u') {x : Deed α κ W}
    (hx : ∀ o, DeedUse x o → P o ∧ ρ o = o) :
    ∃ ρ' P', MirrorSeat ρ' P' (u.act x) (u'.act x) ∧ (∀ o, P o → P' o ∧ ρ' o = ρ o) ∧
      ∀ o, P' o → P o ∨ u'.sys.store.fresh ≤ ρ' o ∧ ρ' o < (u'.act x).sys.store.fresh := by
  have stay : ∀ v v' : Seat α κ W, MirrorSeat ρ P v v' → v = u.act x → v' = u'.act x →
      ∃ ρ' P', MirrorSeat ρ' P' (u.act x) (u'.act x) ∧ (∀ o, P o → P' o ∧ ρ' o = ρ o) ∧
      ∀ o, P' o → P o ∨ u'.sys.store.fresh ≤ ρ' o ∧ ρ' o < (u'.act x).sys.store.fresh := by
    rintro v v' hv rfl rfl
    exact ⟨ρ, P, hv, fun o ho => ⟨ho, rfl⟩, fun o ho => .inl ho⟩
  cases x with
  | add n c =>
    refine stay (u.act (.add n c)) (u'.act (.add n c))
      ⟨h.sys.addBasic (rebuilt_self hx) n, h.gens, h.seen, ?_, ?_⟩ rfl rfl
    · intro o ho; show o < (u.sys.addBasic n c).store.fresh; rw [Sys.addBasic_fresh]; exact h.exist o ho
    · intro o ho; show ρ o < (u'.sys.addBasic n c).store.fresh; rw [Sys.addBasic_fresh]; exact h.exist' o ho
  | remove n =>
    refine stay (u.act (.remove n)) (u'.act (.remove n))
      ⟨h.sys.removeBasic n, h.gens, h.seen, ?_, ?_⟩ rfl rfl
    · intro o ho; show o < (u.sys.removeBasic n).store.fresh; rw [Sys.removeBasic_fresh]; exact h.exist o ho
    · intro o ho; show ρ o < (u'.sys.removeBasic n).store.fresh; rw [Sys.removeBasic_fresh]; exact h.exist' o ho
  | run a =>
    have ha : MirrorArgs ρ P a a := mirrorArgs_self hx
    obtain ⟨k1, k2⟩ := h.sys.start ha h.exist h.exist'
    have ha2 := ha.making (f' := u'.sys.store.fresh) (g := (u.sys.start a).1.store.fresh) h.exist
    have hg : Listwise (MirrorGen (extend ρ u.sys.store.fresh u'.sys.store.fresh)
        (fun o => P o ∨ u.sys.store.fresh ≤ o ∧ o < (u.sys.start a).1.store.fresh)) u.gens u'.gens :=
      h.gens.imp fun _ _ k => ⟨k.args.making h.exist, k.abs, k.pc⟩
    have he : ∀ o, (P o ∨ u.sys.store.fresh ≤ o ∧ o < (u.sys.start a).1.store.fresh) →
        o < (u.sys.start a).1.store.fresh := by
      rintro o (ho | ho)
      · have := h.exist o ho; have := k2.le; omega
      · exact ho.2
    have hn : ∀ o, (u.sys.store.fresh ≤ o ∧ o < (u.sys.start a).1.store.fresh) →
        u'.sys.store.fresh ≤ extend ρ u.sys.store.fresh u'.sys.store.fresh o ∧
        extend ρ u.sys.store.fresh u'.sys.store.fresh o < (u'.sys.start a).1.store.fresh := by
      intro o ho
      rw [extend_new ho.1]
      have := k2.sync; have := k2.le; omega
    have he' : ∀ o, (P o ∨ u.sys.store.fresh ≤ o ∧ o < (u.sys.start a).1.store.fresh) →
        extend ρ u.sys.store.fresh u'.sys.store.fresh o < (u'.sys.start a).1.store.fresh := by
      rintro o (ho | ho)
      · rw [extend_old (h.exist o ho)]
        have := h.exist' o ho; have := k2.sync; have := k2.le; omega
      · exact (hn o ho).2
    have hm := k2.mirror
    refine ⟨extend ρ u.sys.store.fresh u'.sys.store.fresh,
      fun o => P o ∨ u.sys.store.fresh ≤ o ∧ o < (u.sys.start a).1.store.fresh, ?_, ?_, ?_⟩
    · unfold Seat.act
      dsimp only
      generalize extend ρ u.sys.store.fresh u'.sys.store.fresh = r at *
      have he2 : ∀ o, (fun o => P o ∨ u.sys.store.fresh ≤ o ∧ o < (u.sys.start a).1.store.fresh) o →
        o < (u.sys.start a).1.store.fresh := he
      have he3 : ∀ o, (fun o => P o ∨ u.sys.store.fresh ≤ o ∧ o < (u.sys.start a).1.store.fresh) o →
        r o < (u'.sys.start a).1.store.fresh := he'
      clear he he' hn k2
      generalize (fun o => P o ∨ u.sys.store.fresh ≤ o ∧ o < (u.sys.start a).1.store.fresh) = p at *
      rcases e : u.sys.start a with ⟨s, er | abs⟩
      · rcases e' : u'.sys.start a with ⟨s', er' | abs'⟩
        · rw [e, e'] at k1
          cases k1
          rw [e, e'] at hm
          rw [e] at he2
          rw [e'] at he3
          exact ⟨hm, hg, by dsimp only; rw [h.seen], he2, he3⟩
        · rw [e, e'] at k1; cases k1
      · rcases e' : u'.sys.start a with ⟨s', er' | abs'⟩
        · rw [e, e'] at k1; cases k1
        · rw [e, e'] at k1
          cases k1
          rw [e, e'] at hm
          rw [e] at he2
          rw [e'] at he3
          exact ⟨hm, hg.append (.cons ⟨ha2, rfl, rfl⟩ .nil), h.seen, he2, he3⟩
    · intro o ho
      exact ⟨.inl ho, extend_old (h.exist o ho)⟩
    · rintro o (ho | ho)
      · exact .inl ho
      · refine .inr ?_
        have := hn o ho
        have e : ((u'.act (.run a)).sys) = (u'.sys.start a).1 := by
          unfold Seat.act
          dsimp only
          rcases u'.sys.start a with ⟨s, er | abs⟩ <;> rfl
        rw [e]; exact this
  | next k =>
    rcases h.gens.get k with ⟨h1, h2⟩ | ⟨g, g', h1, h2, h3⟩
    · refine stay _ _ h ?_ ?_
      · unfold Seat.act; dsimp only; rw [h1]
      · unfold Seat.act; dsimp only; rw [h2]
    · obtain ⟨g1, g2, g3⟩ := h3
      obtain ⟨k1, k2⟩ := h.sys.step g1 g.abs g.pc
      have f1 : ∀ (s : Sys α κ W) (g : Gen α κ W), (s.step g.args g.abs g.pc).1.store.fresh = s.store.fresh :=
        fun s g => (Sys.step_touches (Q := fun _ => True) (fun _ _ _ _ _ => trivial) (fun _ _ => trivial)
          (fun _ _ => trivial) g.abs g.pc).fresh
      have f2 := f1 u.sys g
      have f3 := f1 u'.sys g'
      rcases e : u.sys.step g.args g.abs g.pc with ⟨s, pc, ev⟩
      rcases e' : u'.sys.step g'.args g.abs g.pc with ⟨s', pc', ev'⟩
      rw [e, e'] at k1 k2
      obtain ⟨rfl, rfl⟩ := Prod.mk.inj k1
      rw [g2, g3, e'] at f3
      rw [e] at f2
      refine stay { sys := s, gens := u.gens.set k { g with pc := pc' }, seen := u.seen ++ ev'.toList.map (.event k) }
        { sys := s', gens := u'.gens.set k { g' with pc := pc' }, seen := u'.seen ++ ev'.toList.map (.event k) }
        ⟨k2, h.gens.set k ⟨g1, g2, rfl⟩, by dsimp only; rw [h.seen], ?_, ?_⟩ ?_ ?_
      · intro o ho; show o < s.store.fresh; rw [f2]; exact h.exist o ho
      · intro o ho; show ρ o < s'.store.fresh; rw [f3]; exact h.exist' o ho
      · unfold Seat.act; dsimp only; rw [h1]; dsimp only; rw [e]
      · unfold Seat.act; dsimp only; rw [h2]; dsimp only; rw [g2, g3, e']
  | other f =>
    refine stay (u.act (.other f)) (u'.act (.other f)) ⟨?_, h.gens, h.seen, h.exist, h.exist'⟩ rfl rfl
    have e : (u'.act (.other f)).sys =
        (u.act (.other f)).sys.recond u'.sys.conds u'.sys.store := by
      show ({ u'.sys with toView := f u'.sys.toView } : Sys α κ W) = _
      conv => lhs; rw [h.sys.eq]
      rfl
    rw [e]
    exact h.sys.change rfl rfl

/-! ## A program with several schedulers -/

/-- During the program: `Q` are the objects of each scheduler; the scheduler `i`, and the
same scheduler in a program of its own. -/
structure Along (p : Prog ι α κ W) (xs : List (ι × Deed α κ W)) (i : ι) (v : Seat α κ W)
    (Q : ι → Nat → Prop) (ρ : Nat → Nat) (P : Nat → Prop) : Prop where
  uses : ∀ j o, Needs p xs j o → Q j o
  apart : ∀ j k, j ≠ k → ∀ o, Q j o → ¬ Q k o
  exist : ∀ j o, Q j o → o < p.store.fresh
  mirror : MirrorSeat ρ P v ((p.seat i).facing p.store)
  into : ∀ o, P o → Q i (ρ o)
  todo : ∀ x, (i, x) ∈ xs → ∀ o, DeedUse x o → P o ∧ ρ o = o

theorem Along.start {p : Prog ι α κ W} {xs : List (ι × Deed α κ W)} (h : NoneShared p xs) (i : ι) :
    Along p xs i ((p.seat i).facing p.store) (Needs p xs) (fun o => o) (Needs p xs i) := by
  refine ⟨fun _ _ k => k, h.apart, h.exist, ⟨⟨rfl, ⟨fun _ _ _ _ e => e, fun _ _ => rfl, fun _ _ _ => rfl⟩, ?_⟩,
    ?_, rfl, h.exist i, h.exist i⟩, fun _ k => k, fun x hx o ho => ⟨.inr ⟨x, hx, ho⟩, rfl⟩⟩
  · have : ∀ n c, (n, c) ∈ ((p.seat i).facing p.store).sys.conds →
        Rebuilt (fun o => o) (Needs p xs i) c c := fun n c hc =>
      rebuilt_self fun o ho => ⟨.inl (.inl ⟨n, c, hc, ho⟩), rfl⟩
    generalize ((p.seat i).facing p.store).sys.conds = d at this
    induction d with
    | nil => exact .nil
    | cons q d ih =>
      exact .cons (this q.1 q.2 List.mem_cons_self) (ih fun n c hc => this n c (List.mem_cons_of_mem _ hc))
  · have : ∀ g ∈ ((p.seat i).facing p.store).gens, MirrorGen (fun o => o) (Needs p xs i) g g := fun g hg =>
      ⟨mirrorArgs_self fun o ho => ⟨.inl (.inr ⟨g, hg, ho⟩), rfl⟩, rfl, rfl⟩
    generalize ((p.seat i).facing p.store).gens = l at this
    induction l with
    | nil => exact .nil
    | cons c l ih =>
      exact .cons (this c List.mem_cons_self) (ih fun x hx => this x (List.mem_cons_of_mem _ hx))

theorem Along.act {p : Prog ι α κ W} {xs : List (ι × Deed α κ W)} {i j : ι} {x : Deed α κ W}
    {v : Seat α κ W} {Q : ι → Nat → Prop} (h : Along p ((j, x) :: xs) i v Q ρ P) :
    ∃ Q' ρ' P', Along (p.act j x) xs i (if j = i then v.act x else v) Q' ρ' P' := by
  have hl := Seat.act_local (u := (p.seat j).facing p.store) (x := x) (Q := Q j)
    (fun o ho => h.uses j o (.inl ho)) (fun o ho => h.uses j o (.inr ⟨x, List.mem_cons_self, ho⟩))
  have hst : (p.act j x).store = (((p.seat j).facing p.store).act x).sys.store := rfl
  have hse : (p.act j x).seat j = ((p.seat j).facing p.store).act x := if_pos rfl
  have hso : ∀ k, k ≠ j → (p.act j x).seat k = p.seat k := fun k hk => if_neg hk
  generalize hw : ((p.seat j).facing p.store).act x = w at hl hst hse
  obtain ⟨hl1, hl2⟩ := hl
  have hf : p.store.fresh ≤ w.sys.store.fresh := hl1.fresh
  -- the objects of each scheduler afterwards
  let Q' : ι → Nat → Prop := fun k o => Q k o ∨ k = j ∧ p.store.fresh ≤ o ∧ o < w.sys.store.fresh
  have uses' : ∀ k o, Needs (p.act j x) xs k o → Q' k o := by
    intro k o hk
    by_cases e : k = j
    · subst e
      rcases hk with hk | ⟨y, hy, hk⟩
      · rw [hse] at hk
        rcases hl2 o hk with h1 | h1
        · exact .inl h1
        · exact .inr ⟨rfl, h1⟩
      · exact .inl (h.uses k o (.inr ⟨y, List.mem_cons_of_mem _ hy, hk⟩))
    · rcases hk with hk | ⟨y, hy, hk⟩
      · rw [hso k e] at hk
        exact .inl (h.uses k o (.inl hk))
      · exact .inl (h.uses k o (.inr ⟨y, List.mem_cons_of_mem _ hy, hk⟩))
  have apart' : ∀ a b, a ≠ b → ∀ o, Q' a o → ¬ Q' b o := by
    rintro a b hab o (h1 | ⟨h1, h2⟩) (h3 | ⟨h3, h4⟩)
    · exact h.apart a b hab o h1 h3
    · have := h.exist a o h1; omega
    · have := h.exist b o h3; omega
    · exact hab (h1.trans h3.symm)
  have exist' : ∀ k o, Q' k o → o < (p.act j x).store.fresh := by
    rintro k o (h1 | ⟨_, h1⟩)
    · have := h.exist k o h1; rw [hst]; omega
    · rw [hst]; exact h1.2
  by_cases hij : j = i
  · subst hij
    rw [if_pos rfl]
    obtain ⟨ρ', P', k1, k2, k3⟩ := h.mirror.act (x := x) (h.todo x List.mem_cons_self)
    refine ⟨Q', ρ', P', uses', apart', exist', ?_, ?_, ?_⟩
    · rw [hse, hst]
      rw [hw] at k1
      exact k1
    · intro o ho
      rcases k3 o ho with h1 | h1
      · exact .inl (by rw [(k2 o h1).2]; exact h.into o h1)
      · rw [hw] at h1
        exact .inr ⟨rfl, h1⟩
    · intro y hy o ho
      obtain ⟨h1, h2⟩ := h.todo y (List.mem_cons_of_mem _ hy) o ho
      exact ⟨(k2 o h1).1, (k2 o h1).2.trans h2⟩
  · rw [if_neg hij]
    refine ⟨Q', ρ, P, uses', apart', exist', ?_, fun o ho => .inl (h.into o ho),
      fun y hy => h.todo y (List.mem_cons_of_mem _ hy)⟩
    rw [hso i (fun e => hij e.symm), hst]
    have hm := h.mirror
    have hsame : ∀ o, P o → w.sys.store.owner (ρ o) = p.store.owner (ρ o) ∧
        ∀ k, w.sys.store.sat (ρ o) k = p.store.sat (ρ o) k := by
      intro o ho
      have := h.into o ho
      exact hl1.out (ρ o) ⟨h.apart i j (fun e => hij e.symm) _ this, h.exist i _ this⟩
    refine ⟨⟨?_, ⟨hm.sys.via.inj, ?_, ?_⟩, hm.sys.conds⟩, hm.gens, hm.seen, hm.exist, ?_⟩
    · have e : ((p.seat i).facing w.sys.store).sys =
          ((p.seat i).facing p.store).sys.recond (p.seat i).sys.conds w.sys.store := rfl
      rw [e, hm.sys.eq]; rfl
    · intro o ho
      exact (hsame o ho).1.trans (hm.sys.via.owner o ho)
    · intro o ho k
      exact ((hsame o ho).2 k).trans (hm.sys.via.sat o ho k)
    · intro o ho
      show ρ o < w.sys.store.fresh
      have := hm.exist' o ho
      have e : ((p.seat i).facing p.store).sys.store.fresh = p.store.fresh := rfl
      omega

theorem Along.perform : ∀ (xs : List (ι × Deed α κ W)) {p : Prog ι α κ W} {i : ι} {v : Seat α κ W}
    {Q : ι → Nat → Prop} {ρ : Nat → Nat} {P : Nat → Prop}, Along p xs i v Q ρ P →
    ∃ Q' ρ' P', Along (Prog.perform xs p) [] i (Seat.acts (forSeat i xs) v) Q' ρ' P'
  | [], p, i, v, Q, ρ, P, h => ⟨Q, ρ, P, h⟩
  | (j, x) :: xs, p, i, v, Q, ρ, P, h => by
    obtain ⟨Q', ρ', P', k⟩ := h.act
    obtain ⟨Q2, ρ2, P2, k2⟩ := Along.perform xs k
    refine ⟨Q2, ρ2, P2, ?_⟩
    have e : Seat.acts (forSeat i ((j, x) :: xs)) v =
        Seat.acts (forSeat i xs) (if j = i then v.act x else v) := by
      unfold forSeat
      by_cases hij : j = i
      · rw [List.filterMap_cons_some (b := x) (by simp [hij]), if_pos hij]; rfl
      · rw [List.filterMap_cons_none (by simp [hij]), if_neg hij]
    rw [e]
    exact k2

end GS

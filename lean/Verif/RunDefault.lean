import Verif.RunPass
/-!
# Default conditions: what `_validate_conditions` creates
-/

set_option linter.unusedSectionVars false

namespace GS
open Spec
variable {α κ W β : Type _} [DecidableEq α] [DecidableEq κ]
variable {E : Sys α κ W → Sys α κ W → Prop} {a : RunArgs α κ W} {s0 s : Sys α κ W}
variable {abs : Bool} {h : History α κ W} {pc : PC α}

mutual
theorem setOwner_rest (v : Option α) : ∀ (c : Cond α κ W) (st : Store α κ),
    (setOwner v c st).sat = st.sat ∧ (setOwner v c st).fresh = st.fresh
  | .leaf o k, st => ⟨rfl, rfl⟩
  | .whileNot o f, st => ⟨rfl, rfl⟩
  | .all o args, st => setOwners_rest v args _
  | .any o args, st => setOwners_rest v args _
  | .not o c, st => setOwner_rest v c _
  | .nwhen o c n, st => setOwner_rest v c _
theorem setOwners_rest (v : Option α) : ∀ (cs : List (Cond α κ W)) (st : Store α κ),
    (setOwners v cs st).sat = st.sat ∧ (setOwners v cs st).fresh = st.fresh
  | [], st => ⟨rfl, rfl⟩
  | c :: cs, st => by
    unfold setOwners
    split
    · obtain ⟨h1, h2⟩ := setOwners_rest v cs (setOwner v c st)
      obtain ⟨h3, h4⟩ := setOwner_rest v c st
      exact ⟨h1.trans h3, h2.trans h4⟩
    · exact setOwners_rest v cs st
end

/-- The leaves `EveryNCalls(d, 1)` of a default condition, with identities from `k`
on. -/
def defaultLeaves (k : Nat) : List α → List (Cond α κ W)
  | [] => []
  | d :: ds => .leaf k (.everyNCalls d 1) :: defaultLeaves (k + 1) ds

theorem defaultLeaves_eq (ds : List α) (o i : Nat) :
    ((ds.zipIdx i).map fun p => (Cond.leaf (o + 1 + p.2) (.everyNCalls p.1 1) : Cond α κ W)) =
      defaultLeaves (o + 1 + i) ds := by
  induction ds generalizing i with
  | nil => rfl
  | cons d ds ih => simp only [List.zipIdx_cons, List.map_cons, defaultLeaves, ih]; rfl

theorem setOwners_leaves (n : α) (ds : List α) (k : Nat) (st : Store α κ)
    (hf : ∀ o, k ≤ o → st.owner o = none) :
    (∀ o, k ≤ o → o < k + ds.length →
      (setOwners (some n) (defaultLeaves k ds : List (Cond α κ W)) st).owner o = some n) ∧
    ∀ o, o < k → (setOwners (some n) (defaultLeaves k ds : List (Cond α κ W)) st).owner o = st.owner o := by
  induction ds generalizing k st with
  | nil => exact ⟨fun o h1 h2 => by simp at h2; omega, fun _ _ => rfl⟩
  | cons d ds ih =>
    unfold defaultLeaves setOwners
    simp only [Cond.oid, hf k (Nat.le_refl k)]
    have hst : ∀ o, k + 1 ≤ o →
        (setOwner (some n) (Cond.leaf k (.everyNCalls d 1) : Cond α κ W) st).owner o = none := by
      intro o ho
      simp only [setOwner, Store.putOwner]
      rw [if_neg (by omega)]; exact hf o (by omega)
    obtain ⟨h1, h2⟩ := ih (k + 1) _ hst
    constructor
    · intro o ho ho'
      by_cases e : o = k
      · subst e
        rw [h2 o (by omega)]
        simp [setOwner, Store.putOwner]
      · exact h1 o (by omega) (by simp only [List.length_cons] at ho'; omega)
    · intro o ho
      rw [h2 o (by omega)]
      simp only [setOwner, Store.putOwner]
      rw [if_neg (by omega)]

/-- The objects a default condition for `deps` with first identity `o` uses. -/
def defaultOids (o : OId) (deps : List α) (x : OId) : Prop := o ≤ x ∧ x < o + deps.length + 1

/-- `c` is the default condition for `deps`, made for `n`. -/
structure IsDefault (st : Store α κ) (n : α) (deps : List α) (c : Cond α κ W) : Prop where
  ex : ∃ o, c = Sys.defaultCond o deps ∧ o + deps.length + 1 ≤ st.fresh ∧
    (∀ d, deps = [d] → st.owner o = some n) ∧
    (2 ≤ deps.length → ∀ x, o + 1 ≤ x → x < o + 1 + deps.length → st.owner x = some n)

theorem addDefault (s : Sys α κ W) (n : α) (deps : List α) :
    let s' := (s.alloc (deps.length + 1)).addBasic n (Sys.defaultCond s.store.fresh deps)
    IsDefault (W := W) s'.store n deps (Sys.defaultCond s.store.fresh deps) ∧
    s'.store.fresh = s.store.fresh + (deps.length + 1) ∧
    (∀ o, o < s.store.fresh → s'.store.owner o = s.store.owner o ∧
      ∀ i, s'.store.sat o i = s.store.sat o i) := by
  intro s'
  have hfr : s'.store.fresh = s.store.fresh + (deps.length + 1) :=
    (setOwner_rest (some n) (Sys.defaultCond s.store.fresh deps) (s.alloc (deps.length + 1)).store).2
  have hsat : s'.store.sat = (s.alloc (deps.length + 1)).store.sat :=
    (setOwner_rest (some n) (Sys.defaultCond s.store.fresh deps) (s.alloc (deps.length + 1)).store).1
  have hs : ∀ o, o < s.store.fresh → ∀ i, s'.store.sat o i = s.store.sat o i := by
    intro o ho i; rw [hsat]; show (if s.store.fresh ≤ o then 0 else s.store.sat o i) = _
    rw [if_neg (by omega)]
  have hown : s'.store.owner =
      (setOwner (some n) (Sys.defaultCond s.store.fresh deps : Cond α κ W)
        (s.alloc (deps.length + 1)).store).owner := rfl
  have hal : ∀ o, o < s.store.fresh → (s.alloc (deps.length + 1)).store.owner o = s.store.owner o := by
    intro o ho; show (if s.store.fresh ≤ o then none else s.store.owner o) = _
    rw [if_neg (by omega)]
  match deps, hfr, hown, hal, hs with
  | [], hfr, hown, hal, hs =>
    refine ⟨⟨_, rfl, ?_, by simp, by simp⟩, hfr, fun o ho => ⟨?_, hs o ho⟩⟩
    · rw [hfr]; simp
    · rw [hown]; simp only [Sys.defaultCond, setOwner, Store.putOwner]
      rw [if_neg (by omega)]; exact hal o ho
  | [d], hfr, hown, hal, hs =>
    refine ⟨⟨_, rfl, ?_, ?_, by simp⟩, hfr, fun o ho => ⟨?_, hs o ho⟩⟩
    · rw [hfr]; simp [Nat.add_assoc]
    · intro _ _; rw [hown]; simp [Sys.defaultCond, setOwner, Store.putOwner]
    · rw [hown]; simp only [Sys.defaultCond, setOwner, Store.putOwner]
      rw [if_neg (by omega)]; exact hal o ho
  | d :: d' :: ds, hfr, hown, hal, hs =>
    have e : (Sys.defaultCond s.store.fresh (d :: d' :: ds) : Cond α κ W) =
        .all s.store.fresh (defaultLeaves (s.store.fresh + 1) (d :: d' :: ds)) := by
      simp only [Sys.defaultCond]; rw [defaultLeaves_eq]
    have hnone : ∀ o, s.store.fresh + 1 ≤ o →
        ((s.alloc ((d :: d' :: ds).length + 1)).store.putOwner s.store.fresh (some n)).owner o = none := by
      intro o ho
      simp only [Store.putOwner]
      rw [if_neg (by omega)]
      show (if s.store.fresh ≤ o then none else s.store.owner o) = _
      rw [if_pos (by omega)]
    obtain ⟨k1, k2⟩ := setOwners_leaves (W := W) n (d :: d' :: ds) _ _ hnone
    have hown' : s'.store.owner = (setOwners (some n)
        (defaultLeaves (s.store.fresh + 1) (d :: d' :: ds) : List (Cond α κ W))
        ((s.alloc ((d :: d' :: ds).length + 1)).store.putOwner s.store.fresh (some n))).owner := by
      rw [hown, e]; rfl
    refine ⟨⟨_, rfl, by rw [hfr]; simp only [List.length_cons]; omega, by simp, ?_⟩, hfr,
      fun o ho => ⟨?_, hs o ho⟩⟩
    · intro _ x h1 h2
      rw [hown']
      exact k1 x h1 h2
    · rw [hown', k2 o (by omega)]
      simp only [Store.putOwner]
      rw [if_neg (by omega)]; exact hal o ho

/-- What later allocations do to existing objects: nothing. -/
structure StoreExt (st st' : Store α κ) : Prop where
  fresh : st.fresh ≤ st'.fresh
  owner : ∀ o, o < st.fresh → st'.owner o = st.owner o
  sat : ∀ o, o < st.fresh → ∀ i, st'.sat o i = st.sat o i

theorem StoreExt.refl (st : Store α κ) : StoreExt st st :=
  ⟨Nat.le_refl _, fun _ _ => rfl, fun _ _ _ => rfl⟩

theorem StoreExt.trans {s1 s2 s3 : Store α κ} (h : StoreExt s1 s2) (k : StoreExt s2 s3) :
    StoreExt s1 s3 :=
  ⟨Nat.le_trans h.fresh k.fresh,
    fun o ho => (k.owner o (Nat.lt_of_lt_of_le ho h.fresh)).trans (h.owner o ho),
    fun o ho i => (k.sat o (Nat.lt_of_lt_of_le ho h.fresh) i).trans (h.sat o ho i)⟩

theorem IsDefault.ext {st st' : Store α κ} {n : α} {deps : List α} {c : Cond α κ W}
    (h : IsDefault st n deps c) (hx : StoreExt st st') : IsDefault st' n deps c := by
  obtain ⟨o, h1, h2, h3, h4⟩ := h.ex
  refine ⟨o, h1, Nat.le_trans h2 hx.fresh, ?_, ?_⟩
  · intro d hd; rw [hx.owner o (by omega)]; exact h3 d hd
  · intro hl x hx1 hx2; rw [hx.owner x (by omega)]; exact h4 hl x hx1 hx2

namespace Sys

theorem validateConditions_spec : ∀ (ns : List α) (s s' : Sys α κ W),
    validateConditions ns s = (s', none) →
    StoreExt s.store s'.store ∧
    (∀ n c, Dict.get? s.conds n = some c → Dict.get? s'.conds n = some c) ∧
    (∀ n ∈ ns, Dict.get? s.conds n = none → ∃ deps c, Dict.get? s.graph n = some deps ∧
      Dict.get? s'.conds n = some c ∧ IsDefault s'.store n deps c) ∧
    (∀ n, n ∉ ns → Dict.get? s'.conds n = Dict.get? s.conds n) := by
  intro ns
  induction ns with
  | nil =>
    intro s s' h
    simp only [validateConditions, Prod.mk.injEq, and_true] at h
    subst h
    exact ⟨.refl _, fun _ _ h => h, by simp, fun _ _ => rfl⟩
  | cons n ns ih =>
    intro s s' h
    unfold validateConditions at h
    cases hc : Dict.get? s.conds n with
    | some c =>
      simp only [hc] at h
      obtain ⟨h1, h2, h3, h4⟩ := ih _ _ h
      refine ⟨h1, h2, ?_, ?_⟩
      · intro m hm hmn
        rcases List.mem_cons.1 hm with rfl | hm
        · rw [hc] at hmn; cases hmn
        · exact h3 m hm hmn
      · intro m hm; exact h4 m (fun x => hm (by simp [x]))
    | none =>
      simp only [hc] at h
      cases hg : Dict.get? s.graph n with
      | none => simp only [hg, Prod.mk.injEq] at h; exact absurd h.2 (by simp)
      | some deps =>
        simp only [hg] at h
        obtain ⟨d1, d2, d3⟩ := addDefault s n deps
        have dx : StoreExt s.store ((s.alloc (deps.length + 1)).addBasic n
            (defaultCond s.store.fresh deps)).store :=
          ⟨by rw [d2]; omega, fun o ho => (d3 o ho).1, fun o ho => (d3 o ho).2⟩
        obtain ⟨h1, h2, h3, h4⟩ := ih _ _ h
        have key : ∀ m, Dict.get? ((s.alloc (deps.length + 1)).addBasic n
            (defaultCond s.store.fresh deps)).conds m =
            if n = m then some (defaultCond s.store.fresh deps) else Dict.get? s.conds m := by
          intro m; exact Dict.get?_set _ _ _ _
        refine ⟨dx.trans h1, ?_, ?_, ?_⟩
        · intro m c hm
          apply h2
          rw [key]
          have : n ≠ m := fun e => by rw [← e, hc] at hm; cases hm
          rw [if_neg this]; exact hm
        · intro m hm hmn
          by_cases e : n = m
          · subst e
            refine ⟨deps, defaultCond s.store.fresh deps, hg, ?_, d1.ext h1⟩
            apply h2; rw [key, if_pos rfl]
          · rcases List.mem_cons.1 hm with rfl | hm
            · exact absurd rfl e
            · obtain ⟨deps', c', e1, e2, e3⟩ := h3 m hm (by rw [key, if_neg e]; exact hmn)
              exact ⟨deps', c', e1, e2, e3⟩
        · intro m hm
          have hnm : n ≠ m := fun e => hm (by simp [e])
          rw [h4 m (fun x => hm (by simp [x])), key, if_neg hnm]

end Sys

/-- Conditions and owners after the start of a run. -/
theorem Started.conds_spec {s0 s : Sys α κ W} (h : Started a s0 s) :
    StoreExt s0.store s.store ∧
    (∀ n c, Dict.get? s0.conds n = some c → Dict.get? s.conds n = some c) ∧
    (∀ n ∈ s0.nodes, Dict.get? s0.conds n = none → ∃ deps c, Dict.get? s0.graph n = some deps ∧
      Dict.get? s.conds n = some c ∧ IsDefault s.store n deps c) ∧
    (∀ n, n ∉ s0.nodes → Dict.get? s.conds n = Dict.get? s0.conds n) := by
  obtain ⟨s1, h1, h2, h3⟩ := h.conds
  obtain ⟨q, hq⟩ := h.topo
  unfold Sys.validateRunState at h1
  simp only [hq] at h1
  have := Sys.validateConditions_spec _ _ _ h1
  rw [h2, h3]
  exact this

/-- Conditions stay as they were at the start of the run. -/
theorem Reach.conds_start (hr : Reach E a s0 abs h s pc) (hE : Keeps E (fun s => s.conds))
    (hE2 : Keeps E (fun s => s.store.owner)) (hE3 : ∀ s s', E s s' → s.store.fresh ≤ s'.store.fresh) :
    ∃ s1, s0.start a = (s1, .ok abs) ∧ s.conds = s1.conds ∧ s.store.owner = s1.store.owner ∧
      s1.store.fresh ≤ s.store.fresh := by
  refine hr.ind (P := fun _ s _ => ∃ s1, s0.start a = (s1, .ok abs) ∧ s.conds = s1.conds ∧
    s.store.owner = s1.store.owner ∧ s1.store.fresh ≤ s.store.fresh) ?_ ?_ ?_
  · intro s hs; exact ⟨s, hs, rfl, rfl, Nat.le_refl _⟩
  · intro h s s' pc pc' ev _ ih hst
    obtain ⟨s1, h1, h2, h3, h4⟩ := ih
    have f := hst.frame
    exact ⟨s1, h1, f.conds.trans h2, f.store.owner.trans h3, by rw [f.store.fresh]; exact h4⟩
  · intro h s s' pc _ ih _ he
    obtain ⟨s1, h1, h2, h3, h4⟩ := ih
    exact ⟨s1, h1, (hE _ _ he).trans h2, (hE2 _ _ he).trans h3, Nat.le_trans h4 (hE3 _ _ he)⟩

/-- The evaluation of `All(EveryNCalls(d, 1) ...)`. -/
theorem evalAll_leaves (v : View α κ W) (id : Option κ) (n : α) (u) (ds : List α) (k : Nat)
    (st : Store α κ) (hu : Dict.get? v.countsUseable id = some u)
    (hn : n ∈ v.nodes) (hds : ∀ d ∈ ds, d ∈ v.nodes)
    (ho : ∀ o, k ≤ o → o < k + ds.length → st.owner o = some n) :
    evalAll v id (defaultLeaves k ds) st = (.ok (decide (∀ d ∈ ds, 1 ≤ u d n)), st) := by
  induction ds generalizing k with
  | nil => simp [defaultLeaves, evalAll]
  | cons d ds ih =>
    unfold defaultLeaves evalAll
    have hd : d ∈ v.nodes := hds d (by simp)
    have hev : eval v id (.leaf k (.everyNCalls d 1)) st = (.ok (decide (1 ≤ u d n)), st) := by
      simp only [eval, evalLeaf, ho k (Nat.le_refl _) (by simp), View.useable, hu]
      rw [if_pos hd]
      simp only [hn, if_true]
      congr 3
      apply propext; omega
    rw [hev]
    by_cases h1 : 1 ≤ u d n
    · simp only [h1, decide_true]
      rw [ih (k + 1) (fun d hd => hds d (by simp [hd]))
        (fun o h1 h2 => ho o (by omega) (by simp only [List.length_cons]; omega))]
      congr 3
      apply propext; simp [h1]
    · simp only [h1, decide_false]
      congr 3
      simp [h1]

/-- The evaluation of a default condition. -/
theorem IsDefault.eval {v : View α κ W} {id : Option κ} {n : α} {u} {deps : List α}
    {st : Store α κ} {c : Cond α κ W} (hd : IsDefault st n deps c)
    (hu : Dict.get? v.countsUseable id = some u)
    (hn : n ∈ v.nodes) (hds : ∀ d ∈ deps, d ∈ v.nodes) :
    GS.eval v id c st = (.ok (decide (∀ d ∈ deps, 1 ≤ u d n)), st) := by
  obtain ⟨o, rfl, _, h3, h4⟩ := hd.ex
  match deps, hds, h3, h4 with
  | [], _, _, _ => simp [Sys.defaultCond, GS.eval, evalLeaf]
  | [d], hds, h3, _ =>
    have := evalAll_leaves v id n u [d] o st hu hn hds (by
      intro x h1 h2
      have : x = o := by simp at h2; omega
      subst this; exact h3 d rfl)
    simp only [defaultLeaves, evalAll] at this
    simp only [Sys.defaultCond]
    rcases he : GS.eval v id (Cond.leaf o (Leaf.everyNCalls d 1)) st with ⟨r, st'⟩
    rw [he] at this
    rcases r with e | b
    · simp at this
    · cases b <;> simpa using this
  | d :: d' :: ds, hds, _, h4 =>
    have e : (Sys.defaultCond o (d :: d' :: ds) : Cond α κ W) =
        .all o (defaultLeaves (o + 1) (d :: d' :: ds)) := by
      simp only [Sys.defaultCond]; rw [defaultLeaves_eq, Nat.add_zero]
    rw [e]
    simp only [GS.eval]
    exact evalAll_leaves v id n u _ _ st hu hn hds (h4 (by simp))

theorem IsDefault.stateless {st : Store α κ} {n : α} {deps : List α} {c : Cond α κ W}
    (hd : IsDefault st n deps c) : Stateless c := by
  obtain ⟨o, rfl, _⟩ := hd.ex
  have hl : ∀ (ds : List α) k, StatelessAll (defaultLeaves k ds : List (Cond α κ W)) := by
    intro ds
    induction ds with
    | nil => intro k; trivial
    | cons d ds ih => intro k; exact ⟨trivial, ih _⟩
  match deps with
  | [] => trivial
  | [d] => trivial
  | d :: d' :: ds =>
    have e : (Sys.defaultCond o (d :: d' :: ds) : Cond α κ W) =
        .all o (defaultLeaves (o + 1) (d :: d' :: ds)) := by
      simp only [Sys.defaultCond]; rw [defaultLeaves_eq, Nat.add_zero]
    rw [e]; exact hl _ _

end GS

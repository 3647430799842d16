import Verif.Order
import Verif.RunInv
/-!
# Two runs that differ in the iteration order of sets
-/

set_option linter.unusedSectionVars false

namespace GS
open Spec
variable {α κ W : Type _} [DecidableEq α] [DecidableEq κ]

/-! ## Counters after several selections -/

/-- The counters after the selections `X`. -/
def bumpFs (X : List α) (f : TimeScale → α → Nat) : TimeScale → α → Nat :=
  X.foldl (fun g n => bumpF n g) f

/-- The useable counters after the selections `X`. -/
def bumpUs (X : List α) (u : α → α → Nat) : α → α → Nat := X.foldl (fun g n => bumpU n g) u

theorem bumpFs_append (X : List α) (n : α) (f : TimeScale → α → Nat) :
    bumpFs (X ++ [n]) f = bumpF n (bumpFs X f) := by simp [bumpFs]

theorem bumpUs_append (X : List α) (n : α) (u : α → α → Nat) :
    bumpUs (X ++ [n]) u = bumpU n (bumpUs X u) := by simp [bumpUs]

theorem bumpFs_eq : ∀ (X : List α) (f : TimeScale → α → Nat), X.Nodup → ∀ t m,
    bumpFs X f t m = f t m + if m ∈ X then 1 else 0
  | [], f, _, t, m => by simp [bumpFs]
  | x :: X, f, hX, t, m => by
    have hx := (List.nodup_cons.1 hX)
    have ih := bumpFs_eq X (bumpF x f) hx.2 t m
    show bumpFs X (bumpF x f) t m = _
    rw [ih]
    by_cases h : m = x
    · subst h; simp [hx.1, bumpF]
    · simp [h, bumpF]

theorem bumpUs_not : ∀ (X : List α) (u : α → α → Nat) {d m : α}, d ∉ X → m ∉ X →
    bumpUs X u d m = u d m
  | [], u, _, _, _, _ => rfl
  | x :: X, u, d, m, hd, hm => by
    have ih := bumpUs_not X (bumpU x u) (d := d) (m := m) (by simp_all) (by simp_all)
    show bumpUs X (bumpU x u) d m = _
    rw [ih]
    have h1 : d ≠ x := by intro e; simp [e] at hd
    have h2 : m ≠ x := by intro e; simp [e] at hm
    simp [bumpU, h1, h2]

theorem bumpUs_sender : ∀ (X : List α) (u : α → α → Nat) {d m : α}, X.Nodup → d ∈ X → m ∉ X →
    bumpUs X u d m = u d m + 1
  | x :: X, u, d, m, hX, hd, hm => by
    have hx := (List.nodup_cons.1 hX)
    have h2 : m ≠ x := by intro e; simp [e] at hm
    have h3 : m ∉ X := by simp_all
    show bumpUs X (bumpU x u) d m = _
    by_cases h : d = x
    · subst h
      rw [bumpUs_not X _ hx.1 h3]
      simp [bumpU, h2]
    · rw [bumpUs_sender X _ hx.2 (by simpa [h] using hd) h3]
      simp [bumpU, h, h2]

theorem bumpUs_receiver : ∀ (X : List α) (u : α → α → Nat) {d m : α}, d ∉ X → m ∈ X →
    bumpUs X u d m = 0
  | x :: X, u, d, m, hd, hm => by
    have h1 : d ≠ x := by intro e; simp [e] at hd
    have h3 : d ∉ X := by simp_all
    show bumpUs X (bumpU x u) d m = _
    by_cases h : m ∈ X
    · exact bumpUs_receiver X _ h3 h
    · have h2 : m = x := by simpa [h] using hm
      rw [bumpUs_not X _ h3 h]
      simp [bumpU, h1, h2]

theorem Dict.set_self {k' β : Type _} [DecidableEq k'] {d : Dict k' β} {k : k'} {v : β}
    (h : Dict.get? d k = some v) : Dict.set d k v = d := by
  induction d with
  | nil => simp at h
  | cons kv d ih =>
    obtain ⟨a, b⟩ := kv
    rw [Dict.get?_cons] at h
    by_cases e : a = k
    · simp only [e, if_true, Option.some.injEq] at h; simp [Dict.set, e, h]
    · simp only [e, if_false] at h; simp [Dict.set, e, ih h]

/-- The scheduler after the selections `X`. -/
def bumped (s : Sys α κ W) (id : Option κ) (f : TimeScale → α → Nat) (u : α → α → Nat)
    (X : List α) : Sys α κ W :=
  (s.putTotal id (bumpFs X f)).putUseable id (bumpUs X u)

theorem bumped_nil {s : Sys α κ W} {id : Option κ} {f u}
    (hf : Dict.get? s.countsTotal id = some f) (hu : Dict.get? s.countsUseable id = some u) :
    bumped s id f u [] = s := by
  unfold bumped
  have e1 : s.putTotal id (bumpFs [] f) = s := by
    unfold Sys.putTotal bumpFs
    rw [List.foldl_nil, Dict.set_self hf]
  rw [e1]
  unfold Sys.putUseable bumpUs
  rw [List.foldl_nil, Dict.set_self hu]

theorem bumped_add (s : Sys α κ W) (id : Option κ) (f u) (X : List α) (n : α) :
    ((bumped s id f u X).putTotal id (bumpF n (bumpFs X f))).putUseable id (bumpU n (bumpUs X u)) =
      bumped s id f u (X ++ [n]) := by
  rw [bumped, bumped, bumpFs_append, bumpUs_append]
  simp [Sys.putTotal, Sys.putUseable, Dict.set_set]

theorem bumped_total (s : Sys α κ W) (id : Option κ) (f u) (X : List α) :
    Dict.get? (bumped s id f u X).countsTotal id = some (bumpFs X f) := by
  simp [bumped, Sys.putTotal, Sys.putUseable, Dict.get?_set]

theorem bumped_useable (s : Sys α κ W) (id : Option κ) (f u) (X : List α) :
    Dict.get? (bumped s id f u X).countsUseable id = some (bumpUs X u) := by
  simp [bumped, Sys.putTotal, Sys.putUseable, Dict.get?_set]

/-! ## The choice of a set -/

variable {a : RunArgs α κ W} {abs : Bool} {s0 : Sys α κ W}

/-- Steps of the choice of one set. -/
inductive Choosing (a : RunArgs α κ W) (abs : Bool) (s0 : Sys α κ W) (c0 : Choice α) :
    Sys α κ W → Choice α → Prop
  | refl : Choosing a abs s0 c0 s0 c0
  | step {s s' : Sys α κ W} {c c' : Choice α} {ev} : Choosing a abs s0 c0 s c →
      StepR a abs s (.choosing c) s' (.choosing c') ev → Choosing a abs s0 c0 s' c'

/-- What is known during the choice. -/
structure ChosenBy (id : Option κ) (f : TimeScale → α → Nat) (u : α → α → Nat) (s0 : Sys α κ W)
    (i : Nat) (ch : Bool) (L : List α) (s : Sys α κ W) (c : Choice α) : Prop where
  idx : c.idx = i
  changed : c.changed = ch
  layer : c.layer = L
  state : s = bumped s0 id f u c.exec
  nodup : c.exec.Nodup
  sub : ∀ n ∈ c.exec, n ∈ L
  todo : ∀ n ∈ c.todo, n ∈ L
  added : ∀ p x r, c.exec = p ++ x :: r → ∃ cond, Dict.get? s0.conds x = some cond ∧
    (eval (bumped s0 id f u p).toView id cond s0.store).1 = .ok true
  refused : c.again = false → ∀ n ∈ L, n ∉ c.todo → n ∉ c.exec →
    ∃ cond, Dict.get? s0.conds n = some cond ∧ (eval s.toView id cond s0.store).1 = .ok false

theorem Choosing.inv {s : Sys α κ W} {c : Choice α} {idx changed layer f u}
    (h : Choosing a abs s0 ⟨idx, changed, layer, [], layer, false⟩ s c)
    (hf : Dict.get? s0.countsTotal a.id = some f) (hu : Dict.get? s0.countsUseable a.id = some u)
    (hst : ∀ n cond, Dict.get? s0.conds n = some cond → ∀ v, (eval v a.id cond s0.store).2 = s0.store) :
    ChosenBy a.id f u s0 idx changed layer s c := by
  induction h with
  | refl =>
    refine ⟨rfl, rfl, rfl, (bumped_nil hf hu).symm, List.nodup_nil, by simp, fun _ h => h, ?_, ?_⟩
    · intro p x r h; simp at h
    · intro _ n h1 h2; exact absurd h1 h2
  | @step s s' c c' ev _ hs ih =>
    have hconds : ∀ X, (bumped s0 a.id f u X).conds = s0.conds := fun _ => rfl
    have hstore : ∀ X, (bumped s0 a.id f u X).store = s0.store := fun _ => rfl
    cases hs with
    | again ht hag =>
      refine ⟨ih.idx, ih.changed, ih.layer, ih.state, ih.nodup, ih.sub, ?_, ih.added, ?_⟩
      · intro n hn; rw [← ih.layer]; exact hn
      · intro _ n h1 h2; rw [ih.layer] at h2; exact absurd h1 h2
    | @skip _ n ns ht hn =>
      refine ⟨ih.idx, ih.changed, ih.layer, ih.state, ih.nodup, ih.sub, ?_, ih.added, ?_⟩
      · intro m hm; exact ih.todo m (by rw [ht]; exact List.mem_cons_of_mem _ hm)
      · intro hag m h1 h2 h3
        refine ih.refused hag m h1 ?_ h3
        rw [ht]
        intro h4
        rcases List.mem_cons.1 h4 with h4 | h4
        · subst h4; exact h3 hn
        · exact h2 h4
    | @reject _ n ns cond st ht hn hc he =>
      have h0 : st = s.store := by
        have e := ih.state
        have h1 : Dict.get? s0.conds n = some cond := by rw [e] at hc; exact hc
        have h2 := hst n cond h1 s.toView
        have h3 : s.store = s0.store := by rw [e]; rfl
        rw [h3] at he
        rw [he] at h2
        exact h2.trans h3.symm
      subst h0
      refine ⟨ih.idx, ih.changed, ih.layer, ih.state, ih.nodup, ih.sub, ?_, ih.added, ?_⟩
      · intro m hm; exact ih.todo m (by rw [ht]; exact List.mem_cons_of_mem _ hm)
      · intro hag m h1 h2 h3
        by_cases hmn : m = n
        · subst hmn
          have e := ih.state
          have h3 : s.store = s0.store := by rw [e]; rfl
          refine ⟨cond, by rw [e] at hc; exact hc, ?_⟩
          show (eval s.toView a.id cond s0.store).1 = _
          rw [← h3, he]
        · refine ih.refused hag m h1 ?_ h3
          rw [ht]
          intro h4
          rcases List.mem_cons.1 h4 with h4 | h4
          · exact hmn h4
          · exact h2 h4
    | @add _ n ns cond st f' u' ht hn hc he hf' hu' hm =>
      have e := ih.state
      have h1 : Dict.get? s0.conds n = some cond := by rw [e] at hc; exact hc
      have h3 : s.store = s0.store := by rw [e]; rfl
      have h0 : st = s.store := by
        have h2 := hst n cond h1 s.toView
        rw [h3] at he
        rw [he] at h2
        exact h2.trans h3.symm
      subst h0
      have ef : f' = bumpFs c.exec f := by
        rw [e, bumped_total] at hf'; exact (Option.some.inj hf').symm
      have eu : u' = bumpUs c.exec u := by
        rw [e, bumped_useable] at hu'; exact (Option.some.inj hu').symm
      subst ef eu
      refine ⟨ih.idx, ih.changed, ih.layer, ?_, ?_, ?_, ?_, ?_, ?_⟩
      · show ((s.putTotal a.id _).putUseable a.id _) = _
        rw [e]; exact bumped_add s0 a.id f u c.exec n
      · rw [List.nodup_append]
        refine ⟨ih.nodup, by simp, ?_⟩
        intro x hx y hy
        simp at hy
        subst hy
        intro exy; subst exy; exact hn hx
      · intro m hm
        rcases List.mem_append.1 hm with hm | hm
        · exact ih.sub m hm
        · simp at hm; subst hm; exact ih.todo m (by rw [ht]; simp)
      · intro m hm; exact ih.todo m (by rw [ht]; exact List.mem_cons_of_mem _ hm)
      · intro p x r hp
        dsimp only at hp
        rcases List.eq_nil_or_concat r with hr | ⟨r', y, hr⟩
        · subst hr
          have := List.append_inj' hp rfl
          obtain ⟨h4, h5⟩ := this
          simp only [List.cons.injEq, and_true] at h5
          subst h4 h5
          refine ⟨cond, h1, ?_⟩
          rw [← e, ← h3, he]
        · rw [hr, List.concat_eq_append] at hp
          have hp' : c.exec ++ [n] = (p ++ x :: r') ++ [y] := by rw [hp]; simp
          have := List.append_inj' hp' rfl
          exact ih.added p x r' this.1
      · intro hag; exact absurd hag (by simp)

/-! ## States of two runs that correspond -/

/-- The states of the two runs correspond. `A d m` says that `d` and `m` are never
considered together. -/
structure Corr (a : RunArgs α κ W) (A : α → α → Prop) (s s' : Sys α κ W) : Prop where
  nodes : s'.nodes = s.nodes
  mode : s'.mode = s.mode
  queue : SameSets s.queue s'.queue
  clock : s'.clock a.id = s.clock a.id
  world : s'.world = s.world
  conds : s'.conds = s.conds
  store : s'.store = s.store
  list : ∃ l l', Dict.get? s.execList a.id = some l ∧ Dict.get? s'.execList a.id = some l' ∧
    SameSets l l'
  total : ∃ f, Dict.get? s.countsTotal a.id = some f ∧ Dict.get? s'.countsTotal a.id = some f
  useable : ∃ u u', Dict.get? s.countsUseable a.id = some u ∧
    Dict.get? s'.countsUseable a.id = some u' ∧ ∀ d m, A d m → u' d m = u d m

variable {A : α → α → Prop} {s s' : Sys α κ W}

theorem Corr.symm (h : Corr a A s s') : Corr a A s' s := by
  obtain ⟨l, l', h1, h2, h3⟩ := h.list
  obtain ⟨f, h4, h5⟩ := h.total
  obtain ⟨u, u', h6, h7, h8⟩ := h.useable
  exact ⟨h.nodes.symm, h.mode.symm, h.queue.symm, h.clock.symm, h.world.symm, h.conds.symm,
    h.store.symm, ⟨l', l, h2, h1, h3.symm⟩, ⟨f, h5, h4⟩, ⟨u', u, h7, h6, fun d m hd => (h8 d m hd).symm⟩⟩

theorem Corr.alike (h : Corr a A s s') :
    Alike a.id (fun _ => True) (fun _ _ => False) s.toView s'.toView := by
  obtain ⟨f, h4, h5⟩ := h.total
  obtain ⟨u, u', h6, h7, h8⟩ := h.useable
  exact ⟨h.nodes, h.mode, h.queue, h.clock, h.world, h.list,
    ⟨f, f, h4, h5, fun _ _ => Nat.le_refl _, fun _ _ _ => rfl⟩, ⟨u, u', h6, h7, fun _ _ hf => hf.elim⟩⟩

/-- Corresponding states while sets are chosen. -/
theorem Corr.alikeBumped (h : Corr a (NotTogether s.queue) s s') {f u u'} {idx : Nat} {layer p X : List α} {x : α}
    (hf : Dict.get? s.countsTotal a.id = some f) (hu : Dict.get? s.countsUseable a.id = some u)
    (hu' : Dict.get? s'.countsUseable a.id = some u') (hl : s.queue[idx]? = some layer)
    (hx : x ∈ layer) (hX : X.Nodup) (hp : p.Nodup) (hsub : ∀ n ∈ p, n ∈ X) (hXl : ∀ n ∈ X, n ∈ layer)
    (hxX : x ∉ X) :
    Alike a.id (fun d => NotTogether s.queue d x) (fun d b => b = some x ∧ NotTogether s.queue d x)
      (bumped s' a.id f u' p).toView (bumped s a.id f u X).toView := by
  have hlq : layer ∈ s.queue := List.mem_of_getElem? hl
  have hd : ∀ d, NotTogether s.queue d x → d ∉ X := fun d hd hdX => hd layer hlq ⟨hXl d hdX, hx⟩
  have hc := h.symm
  refine ⟨hc.nodes, hc.mode, hc.queue, hc.clock, hc.world, hc.list, ?_, ?_⟩
  · refine ⟨bumpFs p f, bumpFs X f, bumped_total _ _ _ _ _, bumped_total _ _ _ _ _, ?_, ?_⟩
    · intro t d
      rw [bumpFs_eq p f hp, bumpFs_eq X f hX]
      by_cases h1 : d ∈ p
      · simp [h1, hsub d h1]
      · simp [h1]
    · intro t d hA
      have h1 := hd d hA
      have h2 : d ∉ p := fun h => h1 (hsub d h)
      rw [bumpFs_eq p f hp, bumpFs_eq X f hX]
      simp [h1, h2]
  · refine ⟨bumpUs p u', bumpUs X u, bumped_useable _ _ _ _ _, bumped_useable _ _ _ _ _, ?_⟩
    rintro d m ⟨hm, hA⟩
    injection hm with hm
    subst hm
    have h1 := hd d hA
    rw [bumpUs_not X u h1 hxX,
      bumpUs_not p u' (fun h => h1 (hsub d h)) (fun h => hxX (hsub _ h))]
    obtain ⟨v, v', h3, h4, h5⟩ := h.useable
    rw [hu] at h3; rw [hu'] at h4
    injection h3 with h3; injection h4 with h4
    subst h3 h4
    exact (h5 d m hA).symm

/-- Every node chosen in the second run is chosen in the first. -/
theorem chosen_sub (h : Corr a (NotTogether s.queue) s s') {f u u'} {idx : Nat} {layer layer' : List α}
    {ch ch' : Bool} {t t' : Sys α κ W} {c c' : Choice α}
    (hf : Dict.get? s.countsTotal a.id = some f) (hu : Dict.get? s.countsUseable a.id = some u)
    (hu' : Dict.get? s'.countsUseable a.id = some u') (hl : s.queue[idx]? = some layer)
    (hl' : SameMembers layer layer')
    (hc : ∀ n c, Dict.get? s.conds n = some c →
      RisingCond (fun d => NotTogether s.queue d n) (fun d b => b = some n ∧ NotTogether s.queue d n)
        s.store.owner c)
    (h1 : ChosenBy a.id f u s idx ch layer t c) (ht : c.todo = []) (hag : c.again = false)
    (h2 : ChosenBy a.id f u' s' idx ch' layer' t' c') :
    ∀ x ∈ c'.exec, x ∈ c.exec := by
  suffices H : ∀ (k : Nat), k ≤ c'.exec.length → ∀ x ∈ c'.exec.take k, x ∈ c.exec by
    have := H c'.exec.length (Nat.le_refl _)
    rwa [List.take_length] at this
  intro k
  induction k with
  | zero => intro _ x hx; simp at hx
  | succ k ih =>
    intro hk x hx
    have hlt : k < c'.exec.length := hk
    rw [List.take_succ_eq_append_getElem hlt] at hx
    have hpre := ih (by omega)
    rcases List.mem_append.1 hx with hx | hx
    · exact hpre x hx
    · simp only [List.mem_singleton] at hx
      have hsplit : c'.exec = c'.exec.take k ++ x :: c'.exec.drop (k + 1) := by
        rw [hx, ← List.drop_eq_getElem_cons hlt, List.take_append_drop]
      obtain ⟨cond, hcond, hev⟩ := h2.added _ _ _ hsplit
      have hxl : x ∈ layer := by
        rw [hl']; exact h2.sub x (by rw [hx]; exact List.getElem_mem hlt)
      refine Classical.byContradiction fun hn => ?_
      have hal := h.alikeBumped (f := f) hf hu hu' hl hxl h1.nodup
        (h2.nodup.sublist (List.take_sublist k _)) hpre h1.sub hn
      obtain ⟨cond', hcond', hev'⟩ := h1.refused hag x hxl (by rw [ht]; simp) hn
      rw [h.conds, hcond'] at hcond
      injection hcond with hcond
      subst hcond
      rw [h.store] at hev
      have := (hc x cond' hcond').up hal hev
      rw [h1.state] at hev'
      rw [hev'] at this
      cases this

end GS

import Verif.Spec.Loosen
import Verif.PartMach
/-!
# Lemmas: conditions that are easier to satisfy never delay a node
-/

set_option linter.unusedSectionVars false

namespace GS
open Spec TimeScale
variable {α κ W : Type _} [DecidableEq α] [DecidableEq κ]
variable {id : Option κ} {s s' s0 s1 t t' t0 t1 : Sys α κ W}
variable {a a' : RunArgs α κ W} {e e' e1 : List α} {ns layer : List α} {n : α}
variable {w w' : List (List α) → World α κ W} {k p : Nat}
variable {ys ys' : List (List α)} {py py' : List (List (List α))} {o : Option Nat}

/-! ## What the choice of a set does to the counters -/

/-- What changes when the nodes in `e'`, but not in `e`, are chosen. -/
structure Moved (id : Option κ) (layer : List α) (s : Sys α κ W) (e : List α) (s' : Sys α κ W)
    (e' : List α) : Prop where
  sub : ∀ m ∈ e, m ∈ e'
  new : ∀ m ∈ e', m ∈ e ∨ m ∈ layer
  queue : s'.queue = s.queue
  nodes : s'.nodes = s.nodes
  conds : s'.conds = s.conds
  clocks : s'.clocks = s.clocks
  world : s'.world = s.world
  owner : s'.store.owner = s.store.owner
  total : ∀ f, Dict.get? s.countsTotal id = some f → ∃ f', Dict.get? s'.countsTotal id = some f' ∧
    ∀ ts m, f' ts m = f ts m + if m ∈ e' ∧ m ∉ e then 1 else 0
  useable : ∀ u, Dict.get? s.countsUseable id = some u → ∃ u', Dict.get? s'.countsUseable id = some u' ∧
    ∀ d b, d ≠ b → ¬ (d ∈ layer ∧ b ∈ layer) →
      u' d b = if b ∈ e' ∧ b ∉ e then 0 else u d b + if d ∈ e' ∧ d ∉ e then 1 else 0

theorem Moved.refl (s : Sys α κ W) (e : List α) : Moved id layer s e s e where
  sub _ h := h
  new _ h := .inl h
  queue := rfl
  nodes := rfl
  conds := rfl
  clocks := rfl
  world := rfl
  owner := rfl
  total f hf := ⟨f, hf, fun ts m => by simp⟩
  useable u hu := ⟨u, hu, fun d b _ _ => by simp⟩

theorem Moved.trans (h : Moved id layer s e s1 e1) (h' : Moved id layer s1 e1 s' e') :
    Moved id layer s e s' e' where
  sub m hm := h'.sub m (h.sub m hm)
  new m hm := by
    rcases h'.new m hm with k | k
    · exact h.new m k
    · exact .inr k
  queue := h'.queue.trans h.queue
  nodes := h'.nodes.trans h.nodes
  conds := h'.conds.trans h.conds
  clocks := h'.clocks.trans h.clocks
  world := h'.world.trans h.world
  owner := h'.owner.trans h.owner
  total f hf := by
    obtain ⟨f1, k1, k2⟩ := h.total f hf
    obtain ⟨f2, k3, k4⟩ := h'.total f1 k1
    refine ⟨f2, k3, fun ts m => ?_⟩
    rw [k4, k2]
    have := h'.sub m
    have := h.sub m
    by_cases h1 : m ∈ e <;> by_cases h2 : m ∈ e1 <;> by_cases h3 : m ∈ e' <;> simp_all
  useable u hu := by
    obtain ⟨u1, k1, k2⟩ := h.useable u hu
    obtain ⟨u2, k3, k4⟩ := h'.useable u1 k1
    refine ⟨u2, k3, fun d b hd hl => ?_⟩
    rw [k4 d b hd hl, k2 d b hd hl]
    have x1 := h'.sub d
    have x2 := h.sub d
    have x3 := h'.sub b
    have x4 := h.sub b
    have x5 := h'.new d
    have x6 := h'.new b
    have x7 := h.new d
    have x8 := h.new b
    grind

theorem Considers.moved (h : Considers id s e n s1 e1) (hn : n ∈ layer) : Moved id layer s e s1 e1 := by
  cases h with
  | skip h1 => exact .refl s e
  | @reject c st h1 h2 h3 =>
    exact { Moved.refl s e with owner := (eval_store' h3).owner, queue := rfl, nodes := rfl, conds := rfl, clocks := rfl, world := rfl }
  | @add c st f u h1 h2 h3 h4 h5 =>
    refine ⟨fun m hm => List.mem_append.2 (.inl hm), fun m hm => ?_, rfl, rfl, rfl, rfl, rfl,
      (eval_store' h3).owner, fun f' hf' => ?_, fun u' hu' => ?_⟩
    · rcases List.mem_append.1 hm with hm | hm
      · exact .inl hm
      · rw [List.mem_singleton.1 hm]; exact .inr hn
    · rw [h4] at hf'; cases hf'
      refine ⟨bumpF n f, Dict.get?_set_self .., fun ts m => ?_⟩
      by_cases hm : m = n
      · subst hm; simp [bumpF, h1]
      · by_cases hm' : m ∈ e <;> simp [bumpF, hm, hm']
    · rw [h5] at hu'; cases hu'
      refine ⟨bumpU n u, Dict.get?_set_self .., fun d b hd hl => ?_⟩
      by_cases hb : b = n
      · subst hb; simp [bumpU, h1, hd]
      · by_cases hd' : d = n
        · subst hd'; by_cases hb' : b ∈ e <;> simp [bumpU, hb, hb', h1]
        · by_cases hb' : b ∈ e <;> by_cases hd2 : d ∈ e <;> simp [bumpU, hb, hd', hb', hd2]

theorem Sweep.moved (h : Sweep id s ns e s' e') (hn : ∀ m ∈ ns, m ∈ layer) : Moved id layer s e s' e' := by
  induction h with
  | nil => exact .refl _ _
  | cons h1 _ ih => exact (h1.moved (hn _ (by simp))).trans (ih fun m hm => hn m (by simp [hm]))

theorem Loop.moved (h : Loop id layer s e s' e') : Moved id layer s e s' e' := by
  induction h with
  | last h => exact h.moved fun _ h => h
  | more h _ _ ih => exact (h.moved fun _ h => h).trans ih

/-- In a round that adds nothing, the condition of each node that is left out is unsatisfied. -/
theorem Sweep.rejected (h : Sweep id s ns e s' e') (he : e' = e) : ∀ m ∈ ns, m ∉ e →
    ∃ c st, Dict.get? s'.conds m = some c ∧ (eval s'.toView id c st).1 = .ok false ∧
      st.owner = s'.store.owner := by
  induction h with
  | nil => nofun
  | @cons s s1 s' n ns e e1 e' hc hs ih =>
    intro m hm hme
    have tail : ∀ {x : Sys α κ W} {l : List α}, Sweep id x ns l s' e' → l = e →
        ∃ st, s' = x.putStore st ∧ st.owner = x.store.owner := by
      intro x l hs hl
      rcases hs.grow with g | ⟨_, g⟩
      · rw [he, hl] at g; exact absurd g (Nat.lt_irrefl _)
      · exact g
    cases hc with
    | skip h1 =>
      rcases List.mem_cons.1 hm with rfl | hm
      · exact absurd h1 hme
      · exact ih he m hm hme
    | @reject c st h1 h2 h3 =>
      rcases List.mem_cons.1 hm with rfl | hm
      · obtain ⟨st', rfl, ho⟩ := tail hs rfl
        refine ⟨c, s.store, h2, ?_, ?_⟩
        · show (eval s.toView id c s.store).1 = _
          rw [h3]
        · exact ((ho.trans (eval_store' h3).owner)).symm
      · exact ih he m hm hme
    | add =>
      rcases hs.grow with g | ⟨g, _⟩
      · rw [he] at g; simp at g; omega
      · rw [he] at g; simp at g

theorem Loop.rejected (h : Loop id layer s e s' e') : ∀ m ∈ layer, m ∉ e' →
    ∃ c st, Dict.get? s'.conds m = some c ∧ (eval s'.toView id c st).1 = .ok false ∧
      st.owner = s'.store.owner := by
  induction h with
  | last h => exact h.rejected rfl
  | more _ _ _ ih => exact ih

end GS

import Verif.Graph
/-!
# Lemmas about layering
-/

set_option linter.unusedSectionVars false
set_option linter.unusedSimpArgs false

namespace GS
open Spec
variable {α : Type _} [DecidableEq α]

open Relation (TransGen)

/-- In a finite set where everybody has a predecessor there is a cycle. -/
theorem exists_cycle_of_pred : ∀ (L : List α) (r : α → α → Prop), L ≠ [] →
    (∀ x ∈ L, ∃ y ∈ L, r y x) → ∃ x ∈ L, TransGen r x x := by
  intro L
  induction L with
  | nil => intro r h; exact absurd rfl h
  | cons a L ih =>
    intro r _ hp
    by_cases haa : r a a
    · exact ⟨a, by simp, .single haa⟩
    · by_cases hL : L = []
      · subst hL
        obtain ⟨y, hy, hr⟩ := hp a (by simp)
        simp at hy; subst hy; exact absurd hr haa
      · have := ih (fun y z => r y z ∨ (r y a ∧ r a z)) hL (by
          intro z hz
          obtain ⟨y, hy, hr⟩ := hp z (by simp [hz])
          rcases List.mem_cons.1 hy with rfl | hy
          · obtain ⟨w, hw, hr'⟩ := hp y (by simp)
            rcases List.mem_cons.1 hw with rfl | hw
            · exact absurd hr' haa
            · exact ⟨w, hw, .inr ⟨hr', hr⟩⟩
          · exact ⟨y, hy, .inl hr⟩)
        obtain ⟨x, hx, ht⟩ := this
        refine ⟨x, by simp [hx], ?_⟩
        have key : ∀ u v, TransGen (fun y z => r y z ∨ (r y a ∧ r a z)) u v → TransGen r u v := by
          intro u v h
          induction h with
          | single h => rcases h with h | ⟨h1, h2⟩
                        · exact .single h
                        · exact .tail (.single h1) h2
          | tail _ h ih => rcases h with h | ⟨h1, h2⟩
                           · exact .tail ih h
                           · exact .tail (.tail ih h1) h2
        exact key _ _ ht

/-! ## Normalised graphs -/

/-- Keys distinct, no self dependencies, senders are keys. -/
structure Normal (g : Graph α) : Prop where
  wf : (g.map Prod.fst).Nodup
  noself : ∀ p ∈ g, p.1 ∉ p.2
  closed : ∀ p ∈ g, ∀ e ∈ p.2, e ∈ g.map Prod.fst

theorem edge_stripSelf (g : Graph α) (s r : α) :
    Edge (Toposort.stripSelf g) s r ↔ ProperEdge g s r := by
  unfold Edge ProperEdge Edge Toposort.stripSelf
  constructor
  · rintro ⟨p, hp, rfl, hs⟩
    rw [List.mem_map] at hp
    obtain ⟨p', hp', rfl⟩ := hp
    simp only [List.mem_filter, decide_eq_true_eq] at hs
    exact ⟨⟨p', hp', rfl, hs.1⟩, by simpa using hs.2⟩
  · rintro ⟨⟨p, hp, rfl, hs⟩, hne⟩
    exact ⟨_, List.mem_map.2 ⟨p, hp, rfl⟩, rfl, by simp [hs, hne]⟩

theorem mem_extraItems (g : Graph α) (n : α) :
    n ∈ Toposort.extraItems g ↔ (∃ p ∈ g, n ∈ p.2) ∧ n ∉ g.map Prod.fst := by
  unfold Toposort.extraItems
  rw [List.mem_eraseDups, List.mem_filter, List.mem_flatMap]
  simp

theorem edge_addExtra (g : Graph α) (s r : α) :
    Edge (Toposort.addExtra g) s r ↔ Edge g s r := by
  unfold Edge Toposort.addExtra
  constructor
  · rintro ⟨p, hp, rfl, hs⟩
    rw [List.mem_append] at hp
    rcases hp with hp | hp
    · exact ⟨p, hp, rfl, hs⟩
    · rw [List.mem_map] at hp
      obtain ⟨n, _, rfl⟩ := hp
      simp at hs
  · rintro ⟨p, hp, rfl, hs⟩
    exact ⟨p, by simp [hp], rfl, hs⟩

theorem nodup_eraseDups : ∀ (n : Nat) (l : List α), l.length ≤ n → l.eraseDups.Nodup := by
  intro n
  induction n with
  | zero => intro l h; cases l with
            | nil => simp
            | cons a l => simp at h
  | succ n ih =>
    intro l h
    cases l with
    | nil => simp
    | cons a l =>
      rw [List.eraseDups_cons, List.nodup_cons]
      constructor
      · rw [List.mem_eraseDups, List.mem_filter]; simp
      · apply ih
        have := List.length_filter_le (fun b => !b == a) l
        simp only [List.length_cons] at h; omega

theorem nodup_eraseDups' (l : List α) : l.eraseDups.Nodup := nodup_eraseDups l.length l (Nat.le_refl _)

theorem normal_data (g : Graph α) (h : (g.map Prod.fst).Nodup) :
    Normal (Toposort.addExtra (Toposort.stripSelf g)) := by
  have hk : (Toposort.stripSelf g).map Prod.fst = g.map Prod.fst := by
    simp [Toposort.stripSelf, List.map_map, Function.comp_def]
  refine ⟨?_, ?_, ?_⟩
  · unfold Toposort.addExtra
    rw [List.map_append, List.map_map, List.nodup_append]
    refine ⟨by rw [hk]; exact h, ?_, ?_⟩
    · simp only [Function.comp_def, List.map_id']
      exact nodup_eraseDups' _
    · intro a ha b hb e
      subst e
      simp only [Function.comp_def, List.map_id'] at hb
      exact ((mem_extraItems _ _).1 hb).2 ha
  · intro p hp hin
    have he : Edge (Toposort.addExtra (Toposort.stripSelf g)) p.1 p.1 := ⟨p, hp, rfl, hin⟩
    rw [edge_addExtra, edge_stripSelf] at he
    exact he.2 rfl
  · intro p hp e he
    unfold Toposort.addExtra at hp ⊢
    rw [List.mem_append] at hp
    rw [List.map_append, List.mem_append]
    rcases hp with hp | hp
    · by_cases hk : e ∈ (Toposort.stripSelf g).map Prod.fst
      · exact .inl hk
      · right
        rw [List.map_map]
        simp only [Function.comp_def, List.map_id']
        exact (mem_extraItems _ _).2 ⟨⟨p, hp, he⟩, hk⟩
    · rw [List.mem_map] at hp
      obtain ⟨n, _, rfl⟩ := hp
      simp at he

theorem isNode_data (g : Graph α) (n : α) :
    n ∈ (Toposort.addExtra (Toposort.stripSelf g)).map Prod.fst ↔ IsNode g n := by
  have hk : (Toposort.stripSelf g).map Prod.fst = g.map Prod.fst := by
    simp [Toposort.stripSelf, List.map_map, Function.comp_def]
  unfold Toposort.addExtra
  rw [List.map_append, List.map_map, List.mem_append]
  simp only [Function.comp_def, List.map_id']
  rw [mem_extraItems, hk]
  have h1 : n ∈ g.map Prod.fst ↔ ∃ p ∈ g, p.1 = n := by rw [List.mem_map]
  rw [h1]
  unfold IsNode
  constructor
  · rintro (h | ⟨⟨p, hp, hn⟩, _⟩)
    · exact .inl h
    · unfold Toposort.stripSelf at hp
      rw [List.mem_map] at hp
      obtain ⟨p', hp', rfl⟩ := hp
      simp only [List.mem_filter] at hn
      exact .inr ⟨p', hp', hn.1⟩
  · rintro (h | ⟨p, hp, hn⟩)
    · exact .inl h
    · by_cases hx : ∃ p ∈ g, p.1 = n
      · exact .inl hx
      · refine .inr ⟨⟨_, List.mem_map.2 ⟨p, hp, rfl⟩, ?_⟩, hx⟩
        simp only [List.mem_filter, decide_eq_true_eq]
        exact ⟨hn, by simpa using fun e => hx ⟨p, hp, e.symm⟩⟩

theorem edge_data (g : Graph α) (s r : α) :
    Edge (Toposort.addExtra (Toposort.stripSelf g)) s r ↔ ProperEdge g s r := by
  rw [edge_addExtra, edge_stripSelf]

/-! ## Chains -/

theorem properEdge_isNode {g : Graph α} {s r : α} (h : ProperEdge g s r) :
    IsNode g s ∧ IsNode g r := by
  obtain ⟨⟨p, hp, rfl, hs⟩, _⟩ := h
  exact ⟨.inr ⟨p, hp, hs⟩, .inl ⟨p, hp, rfl⟩⟩

theorem chain_isNode {g : Graph α} {k : Nat} {n : α} (h : ChainTo g k n) : IsNode g n := by
  cases k with
  | zero => exact h
  | succ k => obtain ⟨s, hs, _⟩ := h; exact (properEdge_isNode hs).2

theorem chain_pred {g : Graph α} : ∀ {k : Nat} {n : α}, ChainTo g (k + 1) n → ChainTo g k n := by
  intro k
  induction k with
  | zero => intro n h; exact chain_isNode h
  | succ k ih => rintro n ⟨s, hs, h⟩; exact ⟨s, hs, ih h⟩

theorem chain_mono {g : Graph α} {k j : Nat} {n : α} (h : ChainTo g k n) (hj : j ≤ k) :
    ChainTo g j n := by
  induction k with
  | zero => have : j = 0 := by omega
            subst this; exact h
  | succ k ih =>
    by_cases e : j = k + 1
    · subst e; exact h
    · exact ih (chain_pred h) (by omega)

theorem chain_of_cycle {g : Graph α} {n : α} (h : TransGen (ProperEdge g) n n) :
    ∀ k, ChainTo g k n := by
  have hnode : ∀ m, TransGen (ProperEdge g) m m → IsNode g m := by
    intro m hm
    cases hm with
    | single h => exact (properEdge_isNode h).1
    | tail _ h => exact (properEdge_isNode h).2
  have trans : ∀ {a b c : α}, TransGen (ProperEdge g) a b → TransGen (ProperEdge g) b c →
      TransGen (ProperEdge g) a c := by
    intro a b c h1 h2
    induction h2 with
    | single h => exact .tail h1 h
    | tail _ h ih => exact .tail ih h
  have key : ∀ k m, TransGen (ProperEdge g) m m → ChainTo g k m := by
    intro k
    induction k with
    | zero => intro m hm; exact hnode m hm
    | succ k ih =>
      intro m hm
      cases hm with
      | single h => exact ⟨m, h, ih m (.single h)⟩
      | tail h1 h2 =>
        exact ⟨_, h2, ih _ (trans (.single h2) h1)⟩
  exact fun k => key k n h

/-! ## The rounds -/

/-- `D` is what is left of the graph after `j` rounds: the nodes with a chain of
length `j`, with their senders among those. -/
structure Left (g : Graph α) (j : Nat) (D : Graph α) : Prop where
  wf : (D.map Prod.fst).Nodup
  nodes : ∀ n, n ∈ D.map Prod.fst ↔ ChainTo g j n
  edges : ∀ s r, Edge D s r ↔ ProperEdge g s r ∧ ChainTo g j s ∧ ChainTo g j r

theorem left_init (g : Graph α) (h : (g.map Prod.fst).Nodup) :
    Left g 0 (Toposort.addExtra (Toposort.stripSelf g)) := by
  refine ⟨(normal_data g h).wf, fun n => isNode_data g n, ?_⟩
  intro s r
  rw [edge_data]
  constructor
  · intro h; exact ⟨h, (properEdge_isNode h).1, (properEdge_isNode h).2⟩
  · exact fun h => h.1

theorem Left.ordered {g : Graph α} {j : Nat} {D : Graph α} (h : Left g j D) (n : α) :
    n ∈ Toposort.ordered D ↔ ChainTo g j n ∧ ¬ ChainTo g (j + 1) n := by
  unfold Toposort.ordered
  rw [List.mem_map]
  constructor
  · rintro ⟨p, hp, rfl⟩
    rw [List.mem_filter] at hp
    have hn : ChainTo g j p.1 := (h.nodes _).1 (List.mem_map.2 ⟨p, hp.1, rfl⟩)
    refine ⟨hn, ?_⟩
    rintro ⟨s, hs, hc⟩
    obtain ⟨p', hp', he, hs'⟩ := (h.edges s p.1).2 ⟨hs, hc, hn⟩
    have : p' = p := by
      have hnd := h.wf
      have key : ∀ (D : Graph α), (D.map Prod.fst).Nodup → p ∈ D → p' ∈ D → p' = p := by
        intro D
        induction D with
        | nil => intro _ h; simp at h
        | cons a D ih =>
          intro hnd h1 h2
          simp only [List.map_cons, List.nodup_cons, List.mem_map, not_exists, not_and] at hnd
          rcases List.mem_cons.1 h1 with h1 | h1 <;> rcases List.mem_cons.1 h2 with h2 | h2
          · rw [h1, h2]
          · rw [← h1] at hnd; exact absurd he (hnd.1 p' h2)
          · rw [← h2] at hnd; exact absurd he.symm (hnd.1 p h1)
          · exact ih hnd.2 h1 h2
      exact key D hnd hp.1 hp'
    subst this
    have := hp.2
    simp at this
    rw [this] at hs'
    simp at hs'
  · rintro ⟨h1, h2⟩
    obtain ⟨p, hp, rfl⟩ := List.mem_map.1 ((h.nodes n).2 h1)
    refine ⟨p, ?_, rfl⟩
    rw [List.mem_filter]
    refine ⟨hp, ?_⟩
    cases hd : p.2 with
    | nil => rfl
    | cons s rest =>
      exfalso
      have := (h.edges s p.1).1 ⟨p, hp, rfl, by simp [hd]⟩
      exact h2 ⟨s, this.1, this.2.1⟩

theorem Left.remove {g : Graph α} {j : Nat} {D : Graph α} (h : Left g j D) :
    Left g (j + 1) (Toposort.remove (Toposort.ordered D) D) := by
  have hk : ∀ n, n ∈ (Toposort.remove (Toposort.ordered D) D).map Prod.fst ↔
      n ∈ D.map Prod.fst ∧ n ∉ Toposort.ordered D := by
    intro n
    unfold Toposort.remove
    rw [List.map_map]
    simp only [Function.comp_def, List.mem_map, List.mem_filter, decide_eq_true_eq]
    constructor
    · rintro ⟨p, ⟨hp, ho⟩, rfl⟩; exact ⟨⟨p, hp, rfl⟩, ho⟩
    · rintro ⟨⟨p, hp, rfl⟩, ho⟩; exact ⟨p, ⟨hp, ho⟩, rfl⟩
  refine ⟨?_, ?_, ?_⟩
  · unfold Toposort.remove
    rw [List.map_map]
    have := h.wf
    exact List.Nodup.sublist (List.Sublist.map _ (List.filter_sublist)) this
  · intro n
    rw [hk, h.nodes, h.ordered]
    constructor
    · rintro ⟨h1, h2⟩
      exact Classical.byContradiction fun h3 => h2 ⟨h1, h3⟩
    · intro h1
      exact ⟨chain_pred h1, fun h2 => h2.2 h1⟩
  · intro s r
    constructor
    · rintro ⟨p, hp, rfl, hs⟩
      unfold Toposort.remove at hp
      rw [List.mem_map] at hp
      obtain ⟨p', hp', rfl⟩ := hp
      simp only [List.mem_filter, decide_eq_true_eq] at hp' hs
      have he := (h.edges s p'.1).1 ⟨p', hp'.1, rfl, hs.1⟩
      have h1 := hp'.2
      have h2 := hs.2
      rw [h.ordered] at h1 h2
      exact ⟨he.1, Classical.byContradiction fun h3 => h2 ⟨he.2.1, h3⟩,
        Classical.byContradiction fun h3 => h1 ⟨he.2.2, h3⟩⟩
    · rintro ⟨he, hs, hr⟩
      obtain ⟨p, hp, rfl, hsp⟩ := (h.edges s r).2 ⟨he, chain_pred hs, chain_pred hr⟩
      refine ⟨(p.1, p.2.filter (fun e => e ∉ Toposort.ordered D)), ?_, rfl, ?_⟩
      · unfold Toposort.remove
        rw [List.mem_map]
        refine ⟨p, ?_, rfl⟩
        simp only [List.mem_filter, decide_eq_true_eq]
        exact ⟨hp, fun h2 => ((h.ordered _).1 h2).2 hr⟩
      · simp only [List.mem_filter, decide_eq_true_eq]
        exact ⟨hsp, fun h2 => ((h.ordered _).1 h2).2 hs⟩

theorem remove_length {D : Graph α} (ho : Toposort.ordered D ≠ []) :
    (Toposort.remove (Toposort.ordered D) D).length < D.length := by
  unfold Toposort.remove
  rw [List.length_map]
  obtain ⟨n, hn⟩ := List.exists_mem_of_ne_nil _ ho
  obtain ⟨p, hp, rfl⟩ := List.mem_map.1 (show n ∈ (D.filter fun p => p.2.isEmpty).map Prod.fst from hn)
  have hp' := (List.mem_filter.1 hp).1
  apply Nat.lt_of_le_of_ne (List.length_filter_le _ _)
  intro he
  have := List.length_filter_eq_length_iff.1 he p hp'
  simp at this
  exact this hn

/-- What the rounds return. -/
theorem rounds_spec (g : Graph α) : ∀ (f j : Nat) (D : Graph α), Left g j D → D.length < f →
    (∃ ls, Toposort.rounds f D = .ok ls ∧
      (∀ l ∈ ls, l ≠ [] ∧ l.Nodup) ∧
      (∀ i n, At ls i n ↔ ChainTo g (j + i) n ∧ ¬ ChainTo g (j + i + 1) n) ∧
      ∀ n, ¬ ChainTo g (j + ls.length) n) ∨
    (Toposort.rounds f D = .error .circularDependency ∧
      ∃ n, TransGen (ProperEdge g) n n) := by
  intro f
  induction f with
  | zero => intro j D _ h; omega
  | succ f ih =>
    intro j D hL hlen
    rw [Toposort.rounds]
    by_cases ho : Toposort.ordered D = []
    · rw [if_pos ho]
      by_cases hD : D = []
      · left
        refine ⟨[], by rw [if_pos hD], by simp, ?_, ?_⟩
        · intro i n
          constructor
          · rintro ⟨l, hl, _⟩; simp at hl
          · rintro ⟨h1, _⟩
            have := (hL.nodes n).2 (chain_mono h1 (by omega))
            rw [hD] at this; simp at this
        · intro n h1
          have := (hL.nodes n).2 h1
          rw [hD] at this; simp at this
      · right
        refine ⟨by rw [if_neg hD], ?_⟩
        have := exists_cycle_of_pred (D.map Prod.fst) (ProperEdge g) (by simpa using hD) (by
          intro x hx
          have hc := (hL.nodes x).1 hx
          have hn : ¬ (ChainTo g j x ∧ ¬ ChainTo g (j + 1) x) := by
            rw [← hL.ordered, ho]; simp
          have hc2 : ChainTo g (j + 1) x := Classical.byContradiction fun h => hn ⟨hc, h⟩
          obtain ⟨s, hs, hsc⟩ := hc2
          exact ⟨s, (hL.nodes s).2 hsc, hs⟩)
        obtain ⟨x, _, hx⟩ := this
        exact ⟨x, hx⟩
    · rw [if_neg ho]
      rcases ih (j + 1) _ hL.remove (by have := remove_length ho; omega) with
        ⟨ls, hls, hne, hat, hend⟩ | ⟨he, hc⟩
      · left
        refine ⟨Toposort.ordered D :: ls, by rw [hls], ?_, ?_, ?_⟩
        · intro l hl
          rcases List.mem_cons.1 hl with rfl | hl
          · refine ⟨ho, ?_⟩
            exact List.Nodup.sublist (List.Sublist.map _ List.filter_sublist) hL.wf
          · exact hne l hl
        · intro i n
          cases i with
          | zero =>
            rw [← Nat.add_zero j] at hL
            have := hL.ordered n
            constructor
            · rintro ⟨l, hl, hn⟩
              simp only [List.getElem?_cons_zero, Option.some.injEq] at hl
              subst hl; exact this.1 hn
            · intro h; exact ⟨_, rfl, this.2 h⟩
          | succ i =>
            have := hat i n
            rw [show j + (i + 1) = j + 1 + i by omega, ← this]
            constructor
            · rintro ⟨l, hl, hn⟩; exact ⟨l, by simpa using hl, hn⟩
            · rintro ⟨l, hl, hn⟩; exact ⟨l, by simpa using hl, hn⟩
        · intro n
          rw [List.length_cons, show j + (ls.length + 1) = j + 1 + ls.length by omega]
          exact hend n
      · right; exact ⟨by rw [he], hc⟩

theorem isNode_nil (n : α) : ¬ IsNode ([] : Graph α) n := by
  rintro (⟨p, hp, _⟩ | ⟨p, hp, _⟩) <;> simp at hp

/-- Everything about `toposort` at once. -/
theorem toposort_spec (g : Graph α) (hg : (g.map Prod.fst).Nodup) :
    (∃ ls, toposort g = .ok ls ∧
      (∀ l ∈ ls, l ≠ [] ∧ l.Nodup) ∧
      (∀ i n, At ls i n ↔ ChainTo g i n ∧ ¬ ChainTo g (i + 1) n) ∧
      (∀ n, ¬ ChainTo g ls.length n) ∧ ¬ HasCycle g) ∨
    (toposort g = .error .circularDependency ∧ HasCycle g) := by
  by_cases hnil : g = []
  · left
    subst hnil
    have hch : ∀ k n, ¬ ChainTo ([] : Graph α) k n := fun k n h => isNode_nil n (chain_isNode h)
    refine ⟨[], rfl, by simp, ?_, fun n => hch _ n, ?_⟩
    · intro i n
      constructor
      · rintro ⟨l, hl, _⟩; simp at hl
      · rintro ⟨h1, _⟩; exact absurd h1 (hch _ _)
    · rintro ⟨n, hn⟩; exact hch 0 n (chain_of_cycle hn 0)
  · unfold toposort
    simp only
    rw [if_neg hnil]
    rcases rounds_spec g _ 0 _ (left_init g hg) (Nat.lt_succ_self _) with
      ⟨ls, h1, h2, h3, h4⟩ | h
    · left
      refine ⟨ls, h1, h2, fun i n => by simpa using h3 i n, fun n => by simpa using h4 n, ?_⟩
      rintro ⟨n, hn⟩
      exact h4 n (chain_of_cycle hn _)
    · right; exact ⟨h.1, h.2⟩

end GS

import Verif.GSCFacts
/-!
# An enumeration of cycles

`nx.simple_cycles` is a parameter of the model.  Here is one function that meets what is
assumed of it (`ListsCycles`): it lists every simple cycle of a graph, each from that of its
nodes that comes first in the graph.
-/

namespace GS
open Spec Relation
variable {α : Type _} [DecidableEq α]

/-- Whether there is an edge. -/
def edgeB (g : Graph α) (a b : α) : Bool := g.any fun p => decide (p.1 = b) && decide (a ∈ p.2)

theorem edgeB_iff (g : Graph α) (a b : α) : edgeB g a b = true ↔ Edge g a b := by
  unfold edgeB Edge
  simp [List.any_eq_true]

/-- The paths without repetition with `k + 1` nodes. -/
def walks (g : Graph α) : Nat → List (List α)
  | 0 => (Dict.keys g).map fun v => [v]
  | k + 1 => (walks g k).flatMap fun w => ((Dict.keys g).filter fun b => decide (b ∉ w) &&
      match w.getLast? with
      | some a => edgeB g a b
      | none => false).map fun b => w ++ [b]

/-- A simple cycle, whose first node comes first in the graph. -/
def closes (g : Graph α) (c : List α) : Bool :=
  decide (c ≠ []) && decide (c.Nodup) &&
  (List.range c.length).all (fun i => match c[i]?, c[(i + 1) % c.length]? with
    | some a, some b => edgeB g a b
    | _, _ => true) &&
  decide ((Dict.keys g).find? (fun n => decide (n ∈ c)) = c.head?)

/-- All simple cycles. -/
def cyclesOf (g : Graph α) : List (List α) :=
  (List.range g.length).flatMap fun k => (walks g k).filter (closes g)

theorem closes_iff (g : Graph α) (c : List α) : closes g c = true ↔
    SimpleCycle g c ∧ (Dict.keys g).find? (fun n => decide (n ∈ c)) = c.head? := by
  unfold closes SimpleCycle
  simp only [Bool.and_eq_true, decide_eq_true_eq, List.all_eq_true, List.mem_range, and_assoc]
  refine and_congr_right fun h0 => and_congr_right fun _ => and_congr_left fun _ => ⟨fun h i a b ha hb => ?_, fun h i hi => ?_⟩
  · have hi : i < c.length := (List.getElem?_eq_some_iff.mp ha).1
    have := h i hi
    rw [ha, hb] at this
    exact (edgeB_iff g a b).mp this
  · cases ha : c[i]? with
    | none => rfl
    | some a =>
      cases hb : c[(i + 1) % c.length]? with
      | none => rfl
      | some b => exact (edgeB_iff g a b).mpr (h i a b ha hb)

/-- A cycle, listed from another node. -/
theorem cycle_from {g : Graph α} {c : List α} (h : SimpleCycle g c) {a : α} (ha : a ∈ c) :
    ∃ d, SimpleCycle g d ∧ d.head? = some a ∧ ∀ x, x ∈ d ↔ x ∈ c := by
  obtain ⟨k, hk, e⟩ := List.mem_iff_getElem.mp ha
  have hlen : (c.drop k ++ c.take k).length = c.length := by simp; omega
  have hget : ∀ i, i < c.length → (c.drop k ++ c.take k)[i]? = c[(i + k) % c.length]? := by
    intro i hi
    rw [List.getElem?_append]
    by_cases h1 : i < (c.drop k).length
    · rw [if_pos h1, List.getElem?_drop]
      simp at h1
      rw [Nat.mod_eq_of_lt (by omega), Nat.add_comm]
    · rw [if_neg h1]
      simp only [List.length_drop] at h1 ⊢
      rw [List.getElem?_take, if_pos (by omega)]
      have : (i + k) % c.length = i - (c.length - k) := by
        rw [Nat.mod_eq_sub_mod (by omega), Nat.mod_eq_of_lt (by omega)]; omega
      rw [this]
  have hmem : ∀ x, x ∈ c.drop k ++ c.take k ↔ x ∈ c := by
    intro x
    rw [List.mem_append]
    exact ⟨fun h => h.elim List.mem_of_mem_drop List.mem_of_mem_take, fun h => by
      rw [← List.take_append_drop k c, List.mem_append] at h; exact h.symm⟩
  refine ⟨c.drop k ++ c.take k, ⟨?_, ?_, ?_⟩, ?_, hmem⟩
  · intro h0
    have := congrArg List.length h0
    rw [hlen] at this
    simp at this; subst this; cases ha
  · have := h.2.1
    rw [← List.take_append_drop k c, List.nodup_append] at this
    rw [List.nodup_append]
    exact ⟨this.2.1, this.1, fun a h1 b h2 e => this.2.2 b h2 a h1 e.symm⟩
  · intro i p q hp hq
    rw [hlen] at hq
    have hn : 0 < c.length := by omega
    have hi : i < c.length := by
      have := (List.getElem?_eq_some_iff.mp hp).1; rw [hlen] at this; exact this
    rw [hget i hi] at hp
    rw [hget _ (Nat.mod_lt _ hn)] at hq
    refine h.2.2 _ p q hp ?_
    rw [← hq]
    congr 1
    simp only [Nat.mod_add_mod, Nat.add_mod_mod]
    congr 1; omega
  · have := hget 0 (by omega)
    rw [Nat.zero_add, Nat.mod_eq_of_lt hk] at this
    rw [List.head?_eq_getElem?, this, List.getElem?_eq_getElem hk, e]

theorem cycle_key {g : Graph α} {c : List α} (h : SimpleCycle g c) {a : α} (ha : a ∈ c) :
    a ∈ Dict.keys g := by
  obtain ⟨k, hk, e⟩ := List.mem_iff_getElem.mp ha
  have hn : 0 < c.length := by omega
  have e2 : ((k + (c.length - 1)) % c.length + 1) % c.length = k := by
    rw [Nat.mod_add_mod]
    have : k + (c.length - 1) + 1 = k + c.length := by omega
    rw [this, Nat.add_mod_right, Nat.mod_eq_of_lt hk]
  have h3 := h.2.2 ((k + (c.length - 1)) % c.length) (c[(k + (c.length - 1)) % c.length]'(Nat.mod_lt _ hn)) a
    (List.getElem?_eq_getElem _) (by rw [e2, List.getElem?_eq_getElem hk, e])
  obtain ⟨p, hp, e, _⟩ := h3
  exact e ▸ List.mem_map_of_mem hp

theorem take_mem_walks {g : Graph α} {c : List α} (h : SimpleCycle g c) :
    ∀ k, k < c.length → c.take (k + 1) ∈ walks g k := by
  intro k
  induction k with
  | zero =>
    intro hk
    cases c with
    | nil => cases hk
    | cons a c =>
      unfold walks
      rw [List.mem_map]
      exact ⟨a, cycle_key h List.mem_cons_self, by simp⟩
  | succ k ih =>
    intro hk
    unfold walks
    rw [List.mem_flatMap]
    refine ⟨c.take (k + 1), ih (by omega), ?_⟩
    rw [List.mem_map]
    refine ⟨c[k + 1], ?_, by rw [List.take_succ_eq_append_getElem hk]⟩
    rw [List.mem_filter]
    refine ⟨cycle_key h (List.getElem_mem hk), ?_⟩
    have hlast : (c.take (k + 1)).getLast? = some c[k] := by
      rw [List.take_succ_eq_append_getElem (show k < c.length by omega), List.getLast?_concat]
    rw [hlast]
    simp only [Bool.and_eq_true, decide_eq_true_eq]
    constructor
    · intro hm
      obtain ⟨j, hj, e⟩ := List.mem_iff_getElem.mp hm
      rw [List.getElem_take] at e
      rw [List.length_take] at hj
      exact List.pairwise_iff_getElem.mp h.2.1 j (k + 1) (by omega) hk (by omega) e
    · rw [edgeB_iff]
      refine h.2.2 k _ _ (List.getElem?_eq_getElem (by omega)) ?_
      rw [Nat.mod_eq_of_lt hk]
      exact List.getElem?_eq_getElem hk

theorem nodup_length_le {l m : List α} (hl : l.Nodup) (h : ∀ x ∈ l, x ∈ m) : l.length ≤ m.length := by
  induction l generalizing m with
  | nil => simp
  | cons a l ih =>
    rw [List.nodup_cons] at hl
    have ha := h a List.mem_cons_self
    have := ih (m := m.erase a) hl.2 fun x hx => by
      have hne : x ≠ a := fun e => hl.1 (e ▸ hx)
      exact (List.mem_erase_of_ne hne).mpr (h x (List.mem_cons_of_mem _ hx))
    rw [List.length_erase_of_mem ha] at this
    have := List.length_pos_of_mem ha
    simp; omega

/-- Every simple cycle is listed, from one of its nodes. -/
theorem mem_cyclesOf {g : Graph α} {c : List α} (h : SimpleCycle g c) :
    ∃ d ∈ cyclesOf g, ∀ x, x ∈ d ↔ x ∈ c := by
  obtain ⟨b, hb⟩ : ∃ b, (Dict.keys g).find? (fun n => decide (n ∈ c)) = some b := by
    cases e : (Dict.keys g).find? (fun n => decide (n ∈ c)) with
    | some b => exact ⟨b, rfl⟩
    | none =>
      exfalso
      obtain ⟨a, l, rfl⟩ := List.exists_cons_of_ne_nil h.1
      have := List.find?_eq_none.mp e a (cycle_key h List.mem_cons_self)
      simp at this
  have hbc : b ∈ c := by have := List.find?_some hb; simpa using this
  obtain ⟨d, d1, d2, d3⟩ := cycle_from h hbc
  refine ⟨d, ?_, d3⟩
  have hpos : 0 < d.length := List.length_pos_iff.mpr d1.1
  have hle : d.length ≤ g.length := by
    have := nodup_length_le d1.2.1 (m := Dict.keys g) fun x hx => cycle_key d1 hx
    simpa [Dict.keys] using this
  unfold cyclesOf
  rw [List.mem_flatMap]
  refine ⟨d.length - 1, by rw [List.mem_range]; omega, ?_⟩
  rw [List.mem_filter, closes_iff]
  refine ⟨?_, d1, ?_⟩
  · have := take_mem_walks d1 (d.length - 1) (by omega)
    rw [show d.length - 1 + 1 = d.length by omega, List.take_length] at this
    exact this
  · have : (fun n => decide (n ∈ d)) = fun n => decide (n ∈ c) := funext fun n => by simp [d3]
    rw [this, hb, d2]

/-- What is assumed of `nx.simple_cycles` holds of this function. -/
theorem cyclesOf_lists : ListsCycles (cyclesOf (α := α)) := by
  intro g
  refine ⟨fun c hc => ?_, fun ⟨c, hc⟩ => ?_⟩
  · unfold cyclesOf at hc
    obtain ⟨k, _, hc⟩ := List.mem_flatMap.mp hc
    exact ((closes_iff g c).mp (List.mem_filter.mp hc).2).1
  · obtain ⟨d, hd, _⟩ := mem_cyclesOf hc
    exact List.ne_nil_of_mem hd

end GS

import Verif.GSCFacts
import Verif.Spec.SameGraph
/-!
# Structural conditions and the order in which a graph is written

The exact set of edges that reconnection adds, and the effect of a condition on two graphs
with the same edges.
-/

set_option linter.unusedSectionVars false

namespace GS
open Spec Relation
variable {α : Type _} [DecidableEq α]

namespace OpCond
variable {c : OpCond α} {owner : α} {s : HG α}

/-! ## Paths that lead back to the owner's former senders -/

/-- Paths from outside a set `A` into it lead through `o`, if only `o` has edges into `A`;
further edges from inside `A` to outside do not change which of them exist. -/
theorem path_back {R S : α → α → Prop} {A : α → Prop} {o : α}
    (hA : ∀ a b, R a b → A b → A a ∨ a = o) (hS : ∀ a b, S a b → R a b ∨ (A a ∧ ¬ A b))
    {r x : α} (hr : ¬ A r) (hro : r ≠ o) (hx : A x) (h : TransGen S r x) : TransGen R r x := by
  have hSA : ∀ a b, S a b → A b → A a ∨ a = o := fun a b h hb =>
    (hS a b h).elim (fun h => hA a b h hb) fun h => absurd hb h.2
  have l1 : ∀ {b}, TransGen S r b → TransGen R r o ∨ (TransGen R r b ∧ ¬ A b) := by
    intro b h
    induction h with
    | single e =>
      rename_i b
      by_cases hb : A b
      · rcases hSA _ _ e hb with h | h
        · exact absurd h hr
        · exact absurd h hro
      · exact .inr ⟨.single ((hS _ _ e).resolve_right fun h => hr h.1), hb⟩
    | tail _ e ih =>
      rename_i b d _
      rcases ih with ih | ⟨i1, i2⟩
      · exact .inl ih
      · by_cases hd : A d
        · rcases hSA _ _ e hd with h | h
          · exact absurd h i2
          · exact .inl (h ▸ i1)
        · exact .inr ⟨i1.tail ((hS _ _ e).resolve_right fun h => i2 h.1), hd⟩
  have l2 : ∀ {b}, TransGen S r b → A b → TransGen R r b ∨ TransGen R o b := by
    intro b h
    induction h with
    | single e => exact fun hb => .inl (.single ((hS _ _ e).resolve_right fun h => h.2 hb))
    | tail _ e ih =>
      intro hd
      have e' := (hS _ _ e).resolve_right fun h => h.2 hd
      rcases hSA _ _ e hd with h | h
      · exact (ih h).imp (·.tail e') (·.tail e')
      · exact .inr (.single (h ▸ e'))
  rcases l2 h hx with h' | h'
  · exact h'
  · rcases l1 h with h'' | ⟨_, h''⟩
    · exact transGen_trans h'' h'
    · exact absurd hx h''

/-! ## Which edges reconnection adds -/

/-- The edges that reconnection adds to `u`. -/
def Reconnects (c : OpCond α) (owner : α) (base : Graph α) (u : HG α) (x r : α) : Prop :=
  r ∉ c.nodes ∧ Edge base owner r ∧ Edge base x owner ∧ ¬ (owner ∈ u.senders r ∧ x ∈ u.senders owner) ∧
    ¬ TransGen (Edge u.value) r x

section
variable {base : Graph α} {u : HG α}

/-- What is known while reconnection is under way: `u` is the graph at the start, `v` the
graph now. -/
structure Mid (c : OpCond α) (owner : α) (base : Graph α) (u v : HG α) : Prop where
  ok : v.Ok
  graph : v.graph = u.graph
  old : ∀ a b, a ∈ u.senders b → a ∈ v.senders b
  new : ∀ a b, a ∈ v.senders b → a ∈ u.senders b ∨ c.Reconnects owner base u a b

theorem reconnectStep_mem (hwf : Dict.WF base) (hb : ¬ Cyclic base) (hu : u.Ok)
    (hk : Dict.keys u.graph = Dict.keys base)
    (hsh : ∀ n m, u.Shares n m → n = m ∨ (Touched c owner n ∧ Touched c owner m))
    (hA : ∀ a b, a ∈ u.senders b → TransGen (Edge base) b owner → TransGen (Edge base) a owner ∨ a = owner)
    (x r : α) {v : HG α} (hv : Mid c owner base u v) :
    Mid c owner base u (c.reconnectStep owner base x v r) ∧
    ∀ a b, a ∈ (c.reconnectStep owner base x v r).senders b ↔
      a ∈ v.senders b ∨ (a = x ∧ b = r ∧ c.Reconnects owner base u a b) := by
  have hfacts : ∀ a b, Edge base a owner → Edge base owner b →
      TransGen (Edge base) a owner ∧ ¬ TransGen (Edge base) b owner ∧ a ≠ owner ∧ b ≠ owner ∧ a ≠ b := by
    intro a b h1 h2
    have nb : ¬ TransGen (Edge base) b owner := fun h => hb ⟨owner, transGen_trans (.single h2) h⟩
    exact ⟨.single h1, nb, fun e => hb ⟨owner, .single (e ▸ h1)⟩, fun e => hb ⟨owner, .single (e ▸ h2)⟩,
      fun e => nb (e ▸ .single h1)⟩
  have hpath : ∀ a b, Edge base a owner → Edge base owner b →
      (TransGen (Edge v.value) b a ↔ TransGen (Edge u.value) b a) := by
    intro a b h1 h2
    obtain ⟨f1, f2, _, f4, _⟩ := hfacts a b h1 h2
    constructor
    · refine path_back (A := fun n => TransGen (Edge base) n owner) (o := owner) ?_ ?_ f2 f4 f1
      · intro p q h; exact hA p q ((HG.edge_value hu _ _).mp h)
      · intro p q h
        rcases hv.new p q ((HG.edge_value hv.ok _ _).mp h) with h | h
        · exact .inl ((HG.edge_value hu _ _).mpr h)
        · have := hfacts p q h.2.2.1 h.2.1
          exact .inr ⟨this.1, this.2.1⟩
    · refine TransGen.mono' fun p q h => (HG.edge_value hv.ok _ _).mpr (hv.old p q ((HG.edge_value hu _ _).mp h))
  have hown : ∀ b, owner ∈ v.senders b ↔ owner ∈ u.senders b := fun b =>
    ⟨fun h => (hv.new _ _ h).resolve_right fun h => (hfacts _ _ h.2.2.1 h.2.1).2.2.1 rfl, hv.old _ _⟩
  have hsnd : ∀ a, a ∈ v.senders owner ↔ a ∈ u.senders owner := fun a =>
    ⟨fun h => (hv.new _ _ h).resolve_right fun h => (hfacts _ _ h.2.2.1 h.2.1).2.2.2.1 rfl, hv.old _ _⟩
  have hrk : Edge base owner r → r ∈ Dict.keys v.graph := fun h => by
    rw [hv.graph, hk]
    obtain ⟨p, hp, e, _⟩ := h
    exact e ▸ List.mem_map_of_mem hp
  have key : (r ∉ c.nodes ∧ owner ∈ Dict.getD base r ∧ x ∈ Dict.getD base owner ∧
      (owner ∉ v.senders r ∨ x ∉ v.senders owner) ∧ x ∉ Dict.getD (getDescendants v.value) r) ↔
      c.Reconnects owner base u x r := by
    unfold Reconnects
    refine and_congr_right fun _ => ?_
    rw [mem_getD_edge hwf, mem_getD_edge hwf]
    refine and_congr_right fun h1 => and_congr_right fun h2 => ?_
    rw [hown, hsnd, mem_descendants (HG.wf_value hv.ok) (by rw [HG.keys_value]; exact hrk h1),
      hpath x r h2 h1, ← Classical.not_and_iff_not_or_not]
    refine and_congr_right fun _ => not_congr ?_
    exact ⟨fun h => h.2, fun h => ⟨(hfacts x r h2 h1).2.2.2.2, h⟩⟩
  have hmem : ∀ a b, a ∈ (c.reconnectStep owner base x v r).senders b ↔
      a ∈ v.senders b ∨ (a = x ∧ b = r ∧ c.Reconnects owner base u a b) := by
    intro a b
    unfold reconnectStep
    by_cases h : c.Reconnects owner base u x r
    · rw [if_pos (key.mpr h)]
      have hrt : ¬ Touched c owner r := fun e => e.elim (hfacts x r h.2.2.1 h.2.1).2.2.2.1 h.1
      have hpr : ∀ m, v.Shares r m → r = m := fun m hm =>
        (hsh r m (by unfold HG.Shares at hm ⊢; rw [← hv.graph]; exact hm)).resolve_right fun h => hrt h.1
      by_cases hbr : b = r
      · subst hbr
        rw [HG.senders_upd_self hv.ok (hrk h.2.1), mem_setAdd]
        constructor
        · rintro (e | e)
          · exact .inr ⟨e, rfl, e ▸ h⟩
          · exact .inl e
        · rintro (e | ⟨e, _⟩)
          · exact .inr e
          · exact .inl e
      · rw [HG.senders_upd_other hv.ok _ (fun hs => hbr (hpr b hs).symm)]
        simp [hbr]
    · rw [if_neg (fun e => h (key.mp e))]
      constructor
      · exact .inl
      · rintro (e | ⟨rfl, rfl, e⟩)
        · exact e
        · exact absurd e h
  refine ⟨⟨?_, ?_, fun a b h => (hmem a b).mpr (.inl (hv.old a b h)), fun a b h => ?_⟩, hmem⟩
  · unfold reconnectStep; split
    · exact hv.ok.upd _ _
    · exact hv.ok
  · unfold reconnectStep; split
    · rw [HG.graph_upd, hv.graph]
    · exact hv.graph
  · rcases (hmem a b).mp h with h | ⟨_, _, h⟩
    · exact hv.new a b h
    · exact .inr h

theorem reconnectInner_mem (hwf : Dict.WF base) (hb : ¬ Cyclic base) (hu : u.Ok)
    (hk : Dict.keys u.graph = Dict.keys base)
    (hsh : ∀ n m, u.Shares n m → n = m ∨ (Touched c owner n ∧ Touched c owner m))
    (hA : ∀ a b, a ∈ u.senders b → TransGen (Edge base) b owner → TransGen (Edge base) a owner ∨ a = owner)
    (x : α) (l : List α) : ∀ {v : HG α}, Mid c owner base u v →
    Mid c owner base u (l.foldl (c.reconnectStep owner base x) v) ∧
    ∀ a b, a ∈ (l.foldl (c.reconnectStep owner base x) v).senders b ↔
      a ∈ v.senders b ∨ (a = x ∧ b ∈ l ∧ c.Reconnects owner base u a b) := by
  induction l with
  | nil => intro v hv; exact ⟨hv, fun a b => by simp⟩
  | cons r l ih =>
    intro v hv
    obtain ⟨h1, h2⟩ := reconnectStep_mem hwf hb hu hk hsh hA x r hv
    obtain ⟨h3, h4⟩ := ih h1
    refine ⟨h3, fun a b => ?_⟩
    rw [List.foldl_cons, h4, h2, List.mem_cons, or_assoc]
    refine or_congr_right ⟨?_, ?_⟩
    · rintro (⟨e1, e2, e3⟩ | ⟨e1, e2, e3⟩)
      · exact ⟨e1, .inl e2, e3⟩
      · exact ⟨e1, .inr e2, e3⟩
    · rintro ⟨e1, e2 | e2, e3⟩
      · exact .inl ⟨e1, e2, e3⟩
      · exact .inr ⟨e1, e2, e3⟩

/-- Reconnection in an acyclic graph, edge by edge. -/
theorem reconnectAll_mem (hwf : Dict.WF base) (hb : ¬ Cyclic base) (hu : u.Ok)
    (hk : Dict.keys u.graph = Dict.keys base)
    (hsh : ∀ n m, u.Shares n m → n = m ∨ (Touched c owner n ∧ Touched c owner m))
    (hA : ∀ a b, a ∈ u.senders b → TransGen (Edge base) b owner → TransGen (Edge base) a owner ∨ a = owner)
    (a b : α) : a ∈ (c.reconnectAll owner base u).senders b ↔
      a ∈ u.senders b ∨ (c.reconnect = true ∧ c.Reconnects owner base u a b) := by
  unfold reconnectAll
  by_cases hr : c.reconnect = true
  · rw [if_pos hr]
    have outer : ∀ (l : List α) {v : HG α}, Mid c owner base u v → ∀ a b,
        a ∈ (l.foldl (fun s sender =>
          (Dict.getD (getReceivers base) owner).foldl (c.reconnectStep owner base sender) s) v).senders b ↔
        a ∈ v.senders b ∨ (a ∈ l ∧ b ∈ Dict.getD (getReceivers base) owner ∧
          c.Reconnects owner base u a b) := by
      intro l
      induction l with
      | nil => intro v hv a b; simp
      | cons x l ih =>
        intro v hv a b
        obtain ⟨h1, h2⟩ := reconnectInner_mem hwf hb hu hk hsh hA x (Dict.getD (getReceivers base) owner) hv
        rw [List.foldl_cons, ih h1, h2, List.mem_cons, or_assoc]
        refine or_congr_right ⟨?_, ?_⟩
        · rintro (⟨e1, e2, e3⟩ | ⟨e1, e2, e3⟩)
          · exact ⟨.inl e1, e2, e3⟩
          · exact ⟨.inr e1, e2, e3⟩
        · rintro ⟨e1 | e1, e2, e3⟩
          · exact .inl ⟨e1, e2, e3⟩
          · exact .inr ⟨e1, e2, e3⟩
    rw [outer _ ⟨hu, rfl, fun _ _ h => h, fun _ _ h => .inl h⟩, mem_getD_edge hwf, mem_getReceivers]
    refine or_congr_right ⟨fun h => ⟨hr, h.2.2⟩, fun h => ⟨h.2.2.2.1, h.2.2.1, h.2⟩⟩
  · rw [if_neg hr]; simp [hr]

end

/-! ## Which nodes share a set -/

/-- The nodes whose set is the owner's old set object. -/
def Common (c : OpCond α) (owner n : α) : Prop :=
  (n = owner ∧ c.ownerSenders = .keep) ∨ (n ∈ c.nodes ∧ c.subjectSenders n = .replace)

/-- Where the set of a node is: its own old object, the owner's, or a new one. -/
structure Where (c : OpCond α) (owner : α) (s : HG α) (lo : Nat) (acc : Heap α × Dict α Addr) : Prop where
  len : lo ≤ acc.1.length
  below : ∀ n a, Dict.get? acc.2 n = some a → a < acc.1.length
  common : ∀ n a, Dict.get? acc.2 n = some a → Common c owner n → a = s.addr owner
  kept : ∀ n a, Dict.get? acc.2 n = some a → ¬ Common c owner n → (n ≠ owner ∧ a = s.addr n) ∨ lo ≤ a
  inj : ∀ n m a, Dict.get? acc.2 n = some a → Dict.get? acc.2 m = some a → n = m ∨ a < lo

theorem newSenders_where (c : OpCond α) (owner : α) {s : HG α} (h : Heap α)
    (hold : ∀ n, Touched c owner n → s.addr n < h.length) (ho : owner ∉ c.nodes) :
    Where c owner s h.length (c.newSenders owner s h) := by
  unfold newSenders
  simp only
  have hlt := hold owner (.inl rfl)
  have main : ∀ (l : List α), (∀ n ∈ l, n ∈ c.nodes) → ∀ acc : Heap α × Dict α Addr,
      Where c owner s h.length acc → Where c owner s h.length (l.foldl (fun acc n =>
        (((c.subjectSenders n).obj acc.1 (s.addr n) (s.addr owner)).1,
          Dict.set acc.2 n ((c.subjectSenders n).obj acc.1 (s.addr n) (s.addr owner)).2)) acc) := by
    intro l
    induction l with
    | nil => intro _ acc h; exact h
    | cons m l ih =>
      intro hl acc w
      rw [List.foldl_cons]
      refine ih (fun n hn => hl n (List.mem_cons_of_mem _ hn)) _ ?_
      have hm := hl m List.mem_cons_self
      have hmo : m ≠ owner := fun e => ho (e ▸ hm)
      have hmlt := hold m (.inr hm)
      have hcm : Common c owner m ↔ c.subjectSenders m = .replace := by
        unfold Common; simp [hmo, hm]
      have hobj := obj_spec (c.subjectSenders m) acc.1 (s.addr m) (s.addr owner)
        (Nat.lt_of_lt_of_le hmlt w.len) (Nat.lt_of_lt_of_le hlt w.len)
      have hrep : c.subjectSenders m = .replace →
          ((c.subjectSenders m).obj acc.1 (s.addr m) (s.addr owner)).2 = s.addr owner := by
        intro e; rw [e]; rfl
      generalize (c.subjectSenders m).obj acc.1 (s.addr m) (s.addr owner) = q at hobj hrep ⊢
      obtain ⟨⟨l3, e3⟩, b3, _, p3⟩ := hobj
      have hge : acc.1.length ≤ q.1.length := by rw [e3]; simp
      have hlen := w.len
      refine ⟨by simp only; omega, ?_, ?_, ?_, ?_⟩
      · intro n a e
        simp only [Dict.get?_set] at e
        by_cases hn : m = n
        · rw [if_pos hn] at e; cases e; exact b3
        · rw [if_neg hn] at e; have := w.below n a e; simp only; omega
      · intro n a e hc
        simp only [Dict.get?_set] at e
        by_cases hn : m = n
        · subst hn; rw [if_pos rfl] at e; cases e; exact hrep (hcm.mp hc)
        · rw [if_neg hn] at e; exact w.common n a e hc
      · intro n a e hc
        simp only [Dict.get?_set] at e
        by_cases hn : m = n
        · subst hn; rw [if_pos rfl] at e; cases e
          rcases p3 with p | p | p
          · exact .inl ⟨hmo, p.2⟩
          · exact absurd (hcm.mpr p.1) hc
          · exact .inr (by omega)
        · rw [if_neg hn] at e; exact w.kept n a e hc
      · intro n k a e1 e2
        simp only [Dict.get?_set] at e1 e2
        have side : ∀ j, Dict.get? acc.2 j = some q.2 → q.2 < h.length := by
          intro j e
          have := w.below j _ e
          rcases p3 with p | p | p
          · omega
          · omega
          · omega
        by_cases hn : m = n <;> by_cases hk : m = k
        · exact .inl (hn.symm.trans hk)
        · rw [if_pos hn] at e1; rw [if_neg hk] at e2; cases e1; exact .inr (side k e2)
        · rw [if_neg hn] at e1; rw [if_pos hk] at e2; cases e2; exact .inr (side n e1)
        · rw [if_neg hn] at e1; rw [if_neg hk] at e2; exact w.inj n k a e1 e2
  refine main c.nodes (fun _ h => h) _ ?_
  have hobj := obj_spec c.ownerSenders (h ++ [unionAll (c.nodes.map s.senders)]) (s.addr owner) h.length
    (by simp; omega) (by simp)
  have hkeep : c.ownerSenders = .keep →
      (c.ownerSenders.obj (h ++ [unionAll (c.nodes.map s.senders)]) (s.addr owner) h.length).2 =
        s.addr owner := by intro e; rw [e]; rfl
  generalize c.ownerSenders.obj (h ++ [unionAll (c.nodes.map s.senders)]) (s.addr owner) h.length = q
    at hobj hkeep ⊢
  obtain ⟨⟨l3, e3⟩, b3, _, p3⟩ := hobj
  have hco : Common c owner owner ↔ c.ownerSenders = .keep := by
    unfold Common; simp [ho]
  have hone : ∀ n a, Dict.get? [(owner, q.2)] n = some a → n = owner ∧ a = q.2 := by
    intro n a e
    rw [Dict.get?_cons] at e
    by_cases hn : owner = n
    · rw [if_pos hn] at e; cases e; exact ⟨hn.symm, rfl⟩
    · rw [if_neg hn] at e; cases e
  refine ⟨by simp only; rw [e3]; simp, ?_, ?_, ?_, ?_⟩
  · intro n a e; obtain ⟨rfl, rfl⟩ := hone n a e; exact b3
  · intro n a e hc; obtain ⟨rfl, rfl⟩ := hone n a e; exact hkeep (hco.mp hc)
  · intro n a e hc; obtain ⟨rfl, rfl⟩ := hone n a e
    rcases p3 with p | p | p
    · exact absurd (hco.mpr p.1) hc
    · exact .inr (by omega)
    · exact .inr (by simp at p; omega)
  · intro n m a e1 e2
    exact .inl ((hone n a e1).1.trans (hone m a e2).1.symm)

/-- Two nodes share a set at the start of the second loop exactly if both sets are the
owner's old one. -/
theorem start_shares (c : OpCond α) (owner : α) {s : HG α} (hs : s.Ok) (hf : c.Fits owner s)
    (hi : NoSharing s) (n m : α) (hn : n ∈ Dict.keys s.graph) :
    (c.start owner s).Shares n m ↔ n = m ∨ (Common c owner n ∧ Common c owner m) := by
  have hS := start_spec c owner hs hf hi
  have hT : ∀ n, Touched c owner n → n ∈ Dict.keys s.graph := fun n h =>
    h.elim (fun e => e ▸ hf.ownerIn) (hf.nodesIn n)
  have hC : ∀ n, Common c owner n → Touched c owner n := fun n h => h.imp (·.1) (·.1)
  obtain ⟨l0, hl0⟩ := (HG.clone_spec hs).grows
  have hold : ∀ n, Touched c owner n → s.addr n < s.heap.length := fun n h =>
    hs.bound n _ (get?_addr (hT n h))
  have hw := newSenders_where c owner s.clone.heap (s := s)
    (fun n h => by rw [hl0]; have := hold n h; simp; omega) hf.apart
  constructor
  · intro h
    by_cases hnm : n = m
    · exact .inl hnm
    obtain ⟨t1, t2⟩ := (hS.shares n m h).resolve_left hnm
    obtain ⟨a, e1, e2⟩ := h
    rw [hS.ns n t1] at e1
    rw [hS.ns m t2] at e2
    have hlo := (hw.inj n m a e1 e2).resolve_left hnm
    have look : ∀ k, Touched c owner k → Dict.get? (c.newSenders owner s s.clone.heap).2 k = some a →
        (Common c owner k ∧ Dict.get? s.graph owner = some a) ∨
        (¬ Common c owner k ∧ k ≠ owner ∧ Dict.get? s.graph k = some a) := by
      intro k hk e
      by_cases hc : Common c owner k
      · exact .inl ⟨hc, by rw [hw.common k a e hc]; exact get?_addr hf.ownerIn⟩
      · have := (hw.kept k a e hc).resolve_right (by omega)
        exact .inr ⟨hc, this.1, by rw [this.2]; exact get?_addr (hT k hk)⟩
    rcases look n t1 e1 with ⟨c1, g1⟩ | ⟨c1, o1, g1⟩ <;> rcases look m t2 e2 with ⟨c2, g2⟩ | ⟨c2, o2, g2⟩
    · exact .inr ⟨c1, c2⟩
    · exact absurd (hi m owner a g2 g1) o2
    · exact absurd (hi n owner a g1 g2) o1
    · exact absurd (hi n m a g1 g2) hnm
  · rintro (rfl | ⟨h1, h2⟩)
    · exact HG.shares_self (by rw [hS.keys]; exact hn)
    · have g : ∀ k, Common c owner k → Dict.get? (c.start owner s).graph k = some (s.addr owner) := by
        intro k hk
        have hkT := hC k hk
        have hkk : k ∈ Dict.keys (c.start owner s).graph := by rw [hS.keys]; exact hT k hkT
        have e := get?_addr hkk
        rw [e]
        rw [hS.ns k hkT] at e
        rw [hw.common k _ e hk]
      exact ⟨_, g n h1, g m h2⟩

/-- The nodes that share a set before post-processing. -/
def Joint (c : OpCond α) (owner n : α) : Prop :=
  match c.kind with
  | .before => Common c owner n
  | .withNode => False
  | .after => Common c owner n ∧ n ≠ owner

theorem pre_keys (hs : s.Ok) (hf : c.Fits owner s) :
    Dict.keys (c.pre owner s).graph = Dict.keys s.graph := (pre_spec c owner hs hf).frame.keys

theorem placed_shares (hs : s.Ok) (hf : c.Fits owner s) (hw : c.kind = .withNode → ∃ n, c.nodes = [n])
    (n m : α) (hn : n ∈ Dict.keys s.graph) :
    (c.placed owner s).Shares n m ↔ n = m ∨ (Joint c owner n ∧ Joint c owner m) := by
  have P1 := pre_spec c owner hs hf
  have hS := start_spec c owner P1.frame.ok P1.fits P1.noShare
  have hF := frame_loopEnd c owner hS P1.frame
  have hl : ∀ n m, n ∈ Dict.keys s.graph → ((c.loopEnd owner (c.pre owner s)).1.Shares n m ↔
      n = m ∨ (Common c owner n ∧ Common c owner m)) := by
    intro n m hn
    rw [loopEnd_shares, start_shares c owner P1.frame.ok P1.fits P1.noShare n m
      (by rw [pre_keys hs hf]; exact hn)]
  have hself := HG.shares_self (s := c.placed owner s) (n := n)
    (by rw [(placed_spec c owner hs hf).frame.keys]; exact hn)
  unfold placed at hself ⊢
  unfold Joint
  cases hk : c.kind with
  | before =>
    have E := place_before_edits c owner hk (c.loopEnd owner (c.pre owner s)).1
    rw [E.shares, hl n m hn]
  | after =>
    simp only
    constructor
    · intro h
      unfold place at h; rw [hk] at h; simp only at h
      rcases HG.shares_assign hF.ok _ _ _ _ h with e | ⟨h1, h2, h3⟩
      · exact .inl e
      · exact ((hl n m hn).mp h3).imp id fun q => ⟨⟨q.1, h1⟩, q.2, h2⟩
    · rintro (rfl | ⟨⟨q1, q2⟩, q3, q4⟩)
      · exact hself
      · unfold place; rw [hk]; simp only
        obtain ⟨a, e1, e2⟩ := (hl n m hn).mpr (.inr ⟨q1, q3⟩)
        refine ⟨a, ?_, ?_⟩
        · rw [HG.get?_assign, if_neg (Ne.symm q2)]; exact e1
        · rw [HG.get?_assign, if_neg (Ne.symm q4)]; exact e2
  | withNode =>
    simp only [false_and, or_false]
    constructor
    · intro h
      unfold place at h; rw [hk] at h; simp only at h
      obtain ⟨k, hk'⟩ := hw hk
      rw [hk'] at h
      simp only at h
      rcases HG.shares_assign (hF.ok.assign _ _) _ _ _ _ h with e | ⟨h1, _, h⟩
      · exact e
      · rcases HG.shares_assign hF.ok _ _ _ _ h with e | ⟨h2, _, h⟩
        · exact e
        · refine ((hl n m hn).mp h).resolve_right fun q => ?_
          rcases q.1 with ⟨e, _⟩ | ⟨e, _⟩
          · exact h2 e
          · rw [hk', List.mem_singleton] at e; exact h1 e
    · rintro rfl; exact hself

/-- The edges before post-processing. -/
theorem placed_mem (hs : s.Ok) (hf : c.Fits owner s) (hw : c.kind = .withNode → ∃ n, c.nodes = [n])
    (x r : α) :
    x ∈ (c.placed owner s).senders r ↔ x ∈ (c.loopEnd owner (c.pre owner s)).1.senders r ∨
      match c.kind with
      | .before => x = owner ∧ ∃ r' ∈ c.nodes, r' = r ∨ (Common c owner r' ∧ Common c owner r)
      | .after => x ∈ c.nodes ∧ r = owner
      | .withNode => Touched c owner r ∧
          ∃ r', Touched c owner r' ∧ x ∈ (c.loopEnd owner (c.pre owner s)).1.senders r' := by
  by_cases hk : c.kind = .before
  · have P1 := pre_spec c owner hs hf
    have hS := start_spec c owner P1.frame.ok P1.fits P1.noShare
    have hF := frame_loopEnd c owner hS P1.frame
    have hkeys : ∀ n ∈ c.nodes, n ∈ Dict.keys (c.loopEnd owner (c.pre owner s)).1.graph := fun n hn => by
      rw [hF.keys]; exact hf.nodesIn n hn
    have E := place_before_edits c owner hk (c.loopEnd owner (c.pre owner s)).1
    have hl : ∀ n m, n ∈ c.nodes → ((c.loopEnd owner (c.pre owner s)).1.Shares n m ↔
        n = m ∨ (Common c owner n ∧ Common c owner m)) := by
      intro n m hn
      rw [loopEnd_shares, start_shares c owner P1.frame.ok P1.fits P1.noShare n m
        (by rw [pre_keys hs hf]; exact hf.nodesIn n hn)]
    simp only [hk]
    constructor
    · intro h
      apply Classical.byContradiction
      intro hn
      refine hn (.inl (E.mem_old hF.ok x r (fun u r' _ q hsh => ?_) h))
      obtain ⟨_, q1, q2⟩ := q
      exact hn (.inr ⟨q1, r', q2, (hl r' r q2).mp hsh⟩)
    · rintro (h | ⟨e, r', q1, q2⟩)
      · exact E.mem_keep hF.ok x r (fun _ _ _ q => by cases q.1) h
      · have h1 : owner ∈ (c.placed owner s).senders r' := place_before_mem c owner hk hF.ok hkeys r' q1
        have h2 := (placed_shares hs hf hw r' r (hf.nodesIn r' q1)).mpr (q2.imp id fun q => by
          unfold Joint; simp only [hk]; exact q)
        rw [e, ← h2.senders_eq]; exact h1
  · have := placed_edges hs hf (fun e => absurd e hk) hw x r
    cases hk' : c.kind with
    | before => exact absurd hk' hk
    | after => rw [hk'] at this; exact this
    | withNode => rw [hk'] at this; exact this

theorem removeNewSelf_mem (base : Graph α) {t : HG α} (ht : t.Ok) (a b : α) :
    a ∈ (removeNewSelf base t).senders b ↔
      a ∈ t.senders b ∧ ¬ (a ∉ Dict.getD base a ∧ t.Shares a b) := by
  have main : ∀ (l : List α) (v : HG α), v.Ok → v.graph = t.graph → ∀ a b,
      (a ∈ (l.foldl (fun s node => if node ∉ Dict.getD base node then
        if node ∈ s.senders node then s.upd node (setRemove node) else s else s) v).senders b ↔
      a ∈ v.senders b ∧ ¬ (a ∈ l ∧ a ∉ Dict.getD base a ∧ t.Shares a b)) := by
    intro l
    induction l with
    | nil => intro v _ _ a b; simp
    | cons n l ih =>
      intro v hv hg a b
      have hsv : ∀ p q, v.Shares p q ↔ t.Shares p q := fun p q => by unfold HG.Shares; rw [hg]
      rw [List.foldl_cons]
      have step : ∃ w : HG α, (if n ∉ Dict.getD base n then
          if n ∈ v.senders n then v.upd n (setRemove n) else v else v) = w ∧ w.Ok ∧ w.graph = t.graph ∧
          ∀ a b, a ∈ w.senders b ↔ a ∈ v.senders b ∧ ¬ (a = n ∧ n ∉ Dict.getD base n ∧ t.Shares n b) := by
        refine ⟨_, rfl, ?_⟩
        by_cases h1 : n ∉ Dict.getD base n
        · rw [if_pos h1]
          by_cases h2 : n ∈ v.senders n
          · rw [if_pos h2]
            refine ⟨hv.upd _ _, by rw [HG.graph_upd, hg], fun a b => ?_⟩
            by_cases h3 : v.Shares n b
            · rw [HG.senders_upd_shared hv _ h3, mem_setRemove]
              have := (hsv n b).mp h3
              simp [h1, this]
            · rw [HG.senders_upd_other hv _ h3]
              have : ¬ t.Shares n b := fun h => h3 ((hsv n b).mpr h)
              simp [this]
          · rw [if_neg h2]
            refine ⟨hv, hg, fun a b => ⟨fun h => ⟨h, fun q => ?_⟩, fun h => h.1⟩⟩
            have := ((hsv n b).mpr q.2.2).senders_eq
            rw [← this, q.1] at h
            exact h2 h
        · rw [if_neg h1]
          exact ⟨hv, hg, fun a b => ⟨fun h => ⟨h, fun q => h1 q.2.1⟩, fun h => h.1⟩⟩
      obtain ⟨w, e, w1, w2, w3⟩ := step
      rw [e, ih w w1 w2, w3, List.mem_cons, and_assoc]
      refine and_congr_right fun _ => ?_
      constructor
      · rintro ⟨h1, h2⟩ ⟨q1, q2, q3⟩
        rcases q1 with q1 | q1
        · exact h1 ⟨q1, q1 ▸ q2, q1 ▸ q3⟩
        · exact h2 ⟨q1, q2, q3⟩
      · intro h
        exact ⟨fun q => h ⟨.inl q.1, q.1 ▸ q.2.1, q.1 ▸ q.2.2⟩, fun q => h ⟨.inr q.1, q.2⟩⟩
  unfold removeNewSelf
  rw [main _ t ht rfl]
  refine and_congr_right fun h => not_congr ⟨fun q => q.2, fun q => ⟨?_, q⟩⟩
  obtain ⟨_, e, _⟩ := q.2
  exact Dict.get?_isSome.mp (by rw [e]; rfl)

theorem selfCut_mem (base : Graph α) {t : HG α} (ht : t.Ok) (a b : α) :
    a ∈ (c.selfCut base t).senders b ↔
      a ∈ t.senders b ∧ ¬ (c.removeSelf = true ∧ a ∉ Dict.getD base a ∧ t.Shares a b) := by
  unfold selfCut
  by_cases h : c.removeSelf = true
  · rw [if_pos h, removeNewSelf_mem base ht]; simp only [h, true_and]
  · rw [if_neg h]; simp [h]

/-! ## Two graphs with the same edges -/

theorem _root_.GS.Spec.SameShape.fn {g h : Graph α} (e : SameShape g h) : Edge g = Edge h :=
  funext fun x => funext fun r => propext (e.edges x r)

section
variable {s' : HG α}

theorem fits_same (e : SameShape s.value s'.value) (hf : c.Fits owner s) : c.Fits owner s' := by
  have hk : ∀ n, n ∈ Dict.keys s.graph → n ∈ Dict.keys s'.graph := fun n h => by
    have := (e.keys n).mp (by rw [HG.keys_value]; exact h)
    rw [HG.keys_value] at this; exact this
  exact ⟨hk _ hf.ownerIn, fun n h => hk n (hf.nodesIn n h), hf.apart⟩

theorem pre_same (hs : s.Ok) (hs' : s'.Ok) (hf : c.Fits owner s) (e : SameShape s.value s'.value) :
    SameShape (c.pre owner s).value (c.pre owner s').value := by
  have P := pre_spec c owner hs hf
  have P' := pre_spec c owner hs' (fits_same e hf)
  refine ⟨fun n => ?_, fun x r => ?_⟩
  · have := e.keys n
    rw [HG.keys_value, HG.keys_value] at this
    rw [HG.keys_value, HG.keys_value, P.frame.keys, P'.frame.keys]; exact this
  · have := e.edges x r
    rw [HG.edge_value hs, HG.edge_value hs'] at this
    rw [HG.edge_value P.frame.ok, HG.edge_value P'.frame.ok, P.mem, P'.mem, this]

theorem disagree_same {g h : Graph α} (e : SameShape g h) : Disagree c owner g ↔ Disagree c owner h := by
  unfold Disagree NewSender NewReceiver; rw [e.fn]

theorem operated_same {g h g' h' : Graph α} (e : SameShape g h) (o : Operated c owner g g')
    (o' : Operated c owner h h') : SameShape g' h' := by
  refine ⟨fun n => by rw [o.nodes, o'.nodes]; exact e.keys n, fun x r => ?_⟩
  by_cases hr : Touched c owner r
  · rw [o.senders x r hr, o'.senders x r hr]; unfold NewSender; rw [e.fn]
  · by_cases hx : Touched c owner x
    · rw [o.receivers x r hx, o'.receivers x r hx]; unfold NewReceiver; rw [e.fn]
    · rw [o.others x r hx hr, o'.others x r hx hr]; exact e.edges x r

theorem loopEnd_same (hs : s.Ok) (hs' : s'.Ok) (hf : c.Fits owner s) (e : SameShape s.value s'.value)
    (hd : ¬ Disagree c owner (c.pre owner s).value) (x r : α) :
    x ∈ (c.loopEnd owner (c.pre owner s)).1.senders r ↔
      x ∈ (c.loopEnd owner (c.pre owner s')).1.senders r := by
  have P := pre_spec c owner hs hf
  have P' := pre_spec c owner hs' (fits_same e hf)
  have hp := pre_same hs hs' hf e
  have hF := frame_loopEnd c owner (start_spec c owner P.frame.ok P.fits P.noShare) P.frame
  have hF' := frame_loopEnd c owner (start_spec c owner P'.frame.ok P'.fits P'.noShare) P'.frame
  have := (operated_same hp (loopEnd_operated c owner P.frame.ok P.fits P.noShare hd)
    (loopEnd_operated c owner P'.frame.ok P'.fits P'.noShare
      (fun h => hd ((disagree_same hp).mpr h)))).edges x r
  rwa [HG.edge_value hF.ok, HG.edge_value hF'.ok] at this

theorem placed_same (hs : s.Ok) (hs' : s'.Ok) (hf : c.Fits owner s) (e : SameShape s.value s'.value)
    (hw : c.kind = .withNode → ∃ n, c.nodes = [n])
    (hd : ¬ Disagree c owner (c.pre owner s).value) (x r : α) :
    x ∈ (c.placed owner s).senders r ↔ x ∈ (c.placed owner s').senders r := by
  rw [placed_mem hs hf hw, placed_mem hs' (fits_same e hf) hw]
  simp only [loopEnd_same hs hs' hf e hd]

theorem selfCut_same (hs : s.Ok) (hs' : s'.Ok) (hf : c.Fits owner s) (e : SameShape s.value s'.value)
    (hw : c.kind = .withNode → ∃ n, c.nodes = [n])
    (hd : ¬ Disagree c owner (c.pre owner s).value) (x r : α) :
    x ∈ (c.selfCut s.value (c.placed owner s)).senders r ↔
      x ∈ (c.selfCut s'.value (c.placed owner s')).senders r := by
  have hf' := fits_same e hf
  have Q := placed_spec c owner hs hf
  have Q' := placed_spec c owner hs' hf'
  rw [selfCut_mem _ Q.frame.ok, selfCut_mem _ Q'.frame.ok, placed_same hs hs' hf e hw hd x r,
    mem_getD_edge (HG.wf_value hs), mem_getD_edge (HG.wf_value hs'), e.edges x x]
  refine and_congr_right fun hx => not_congr (and_congr_right fun _ => and_congr_right fun _ => ?_)
  have hkey : ∀ n, n ∈ Dict.keys s.graph ↔ n ∈ Dict.keys s'.graph := fun n => by
    have := e.keys n; rwa [HG.keys_value, HG.keys_value] at this
  have hr' := HG.key_of_senders hx
  rw [Q'.frame.keys] at hr'
  have hr := (hkey r).mpr hr'
  have a := placed_shares hs hf hw r x hr
  have b := placed_shares hs' hf' hw r x hr'
  exact ⟨fun h => (b.mpr (a.mp h.symm)).symm, fun h => (a.mpr (b.mp h.symm)).symm⟩

theorem operHolds_or {op : Oper} {p q : Prop} (h : OperHolds op p q) : p ∨ q := by
  cases op <;> simp only [OperHolds] at h
  · exact .inl h
  · exact .inr h
  · exact .inl h.1
  · exact h
  · exact h
  · exact .inl h.1
  · exact .inr h.1
  · exact h.imp (·.1) (·.1)

/-- In an acyclic graph nothing but the owner gets a new edge to one of the nodes upstream
of the owner, except nodes that are upstream of the owner themselves. -/
theorem placed_upstream (hs : s.Ok) (hf : c.Fits owner s) (hb : ¬ Cyclic s.value)
    (hw : c.kind = .withNode → ∃ n, c.nodes = [n])
    (hd : ¬ Disagree c owner (c.pre owner s).value) (a b : α)
    (h : a ∈ (c.placed owner s).senders b) (hA : TransGen (Edge s.value) b owner) :
    TransGen (Edge s.value) a owner ∨ a = owner := by
  have P := pre_spec c owner hs hf
  have hF := frame_loopEnd c owner (start_spec c owner P.frame.ok P.fits P.noShare) P.frame
  have O := loopEnd_operated c owner P.frame.ok P.fits P.noShare hd
  have base : ∀ x r, Edge (c.pre owner s).value x r → Edge s.value x r := fun x r h => by
    rw [HG.edge_value P.frame.ok, P.mem] at h
    exact (HG.edge_value hs _ _).mpr h.1
  have up : ∀ x r, Edge s.value x r → TransGen (Edge s.value) r owner → TransGen (Edge s.value) x owner :=
    fun x r h t => transGen_trans (.single h) t
  have hbo : b ≠ owner := fun e => hb ⟨owner, e ▸ hA⟩
  have ns : ∀ x r, NewSender c owner (c.pre owner s).value r x → r ≠ owner →
      TransGen (Edge s.value) r owner → TransGen (Edge s.value) x owner := by
    rintro x r (⟨e, _⟩ | ⟨_, h⟩) hr ht
    · exact absurd e hr
    · rcases operHolds_or h with h | h
      · exact up _ _ (base _ _ h) ht
      · exact .single (base _ _ h)
  have lo : ∀ x r, x ∈ (c.loopEnd owner (c.pre owner s)).1.senders r → r ≠ owner →
      TransGen (Edge s.value) r owner → TransGen (Edge s.value) x owner ∨ x = owner := by
    intro x r h hr ht
    rw [← HG.edge_value hF.ok] at h
    by_cases h1 : Touched c owner r
    · exact .inl (ns x r ((O.senders x r h1).mp h) hr ht)
    · by_cases h2 : Touched c owner x
      · rcases (O.receivers x r h2).mp h with ⟨e, _⟩ | ⟨_, h⟩
        · exact .inr e
        · rcases operHolds_or h with h | h
          · exact .inl (up _ _ (base _ _ h) ht)
          · exact absurd ⟨owner, transGen_trans (.single (base _ _ h)) ht⟩ hb
      · exact .inl (up _ _ (base _ _ ((O.others x r h2 h1).mp h)) ht)
  rw [placed_mem hs hf hw] at h
  rcases h with h | h
  · exact lo a b h hbo hA
  · cases hk : c.kind with
    | before => rw [hk] at h; exact .inr h.1
    | after => rw [hk] at h; exact absurd h.2 hbo
    | withNode =>
      rw [hk] at h
      obtain ⟨h1, r', h2, h3⟩ := h
      obtain ⟨n, hn⟩ := hw hk
      have hbn : b = n := by
        rcases h1 with h1 | h1
        · exact absurd h1 hbo
        · rw [hn, List.mem_singleton] at h1; exact h1
      by_cases hr : r' = owner
      · rw [← HG.edge_value hF.ok, O.senders a r' h2] at h3
        rcases h3 with ⟨_, h3⟩ | ⟨h3, _⟩
        · rcases operHolds_or h3 with h3 | ⟨m, hm, h3⟩
          · exact .inl (.single (base _ _ h3))
          · rw [hn, List.mem_singleton] at hm
            exact .inl (up _ _ (base _ _ h3) (by rw [hm, ← hbn]; exact hA))
        · exact absurd hr h3
      · have : r' = n := by
          rcases h2 with h2 | h2
          · exact absurd h2 hr
          · rw [hn, List.mem_singleton] at h2; exact h2
        exact lo a r' h3 hr (by rw [this, ← hbn]; exact hA)

/-- The graph after self-edges are removed, and before cycles are. -/
theorem trimmed_upstream (hs : s.Ok) (hf : c.Fits owner s) (hb : ¬ Cyclic s.value)
    (hw : c.kind = .withNode → ∃ n, c.nodes = [n])
    (hd : ¬ Disagree c owner (c.pre owner s).value) (a b : α)
    (h : a ∈ (c.selfCut s.value (c.placed owner s)).senders b) (hA : TransGen (Edge s.value) b owner) :
    TransGen (Edge s.value) a owner ∨ a = owner :=
  placed_upstream hs hf hb hw hd a b
    ((selfCut_mem _ (placed_spec c owner hs hf).frame.ok a b).mp h).1 hA

/-- If there is no disagreement and no cycle to prune, the result is that of reconnection. -/
theorem modify_unpruned (cyc : Graph α → List (List α)) (hs : s.Ok) (hf : c.Fits owner s)
    (hv : ¬ ∀ n ∈ c.nodes, c.valid owner s.clone n = true)
    (hd : ¬ (c.ignoreConflicts = false ∧ Disagree c owner (c.pre owner s).value))
    (hp : c.prune = true → cyc (c.selfCut s.value (c.placed owner s)).value = []) :
    c.modify cyc owner s = .ok (c.reconnectAll owner s.value (c.selfCut s.value (c.placed owner s))) := by
  have P := pre_spec c owner hs hf
  have hfl := loopEnd_flag c owner P.frame.ok P.fits P.noShare
  rcases modify_cases cyc c owner hs hf with ⟨h, _⟩ | ⟨_, h1, h2, _⟩ | ⟨_, _, u, hu, _, h1, h2, _⟩
  · exact absurd h hv
  · exact absurd ⟨h1, hfl.mp h2⟩ hd
  · rw [h2]
    by_cases hpr : c.prune = true
    · rw [h1 (hp hpr)]
    · unfold pruneCycles at hu
      rw [if_neg hpr] at hu
      cases hu; rfl

theorem valid_same (hs : s.Ok) (hs' : s'.Ok) (e : SameShape s.value s'.value) (n : α) :
    c.valid owner s.clone n = true ↔ c.valid owner s'.clone n = true := by
  have hm : ∀ x r, x ∈ s.senders r ↔ x ∈ s'.senders r := fun x r => by
    rw [← HG.edge_value hs, ← HG.edge_value hs']; exact e.edges x r
  rw [valid_clone hs, valid_clone hs']
  unfold valid
  cases c.kind <;> simp [hm]

/-- The effect of a condition on two graphs with the same edges, for two enumerations of
cycles. -/
theorem modify_same (cyc cyc' : Graph α → List (List α)) (hs : s.Ok) (hs' : s'.Ok)
    (hf : c.Fits owner s) (e : SameShape s.value s'.value)
    (hw : c.kind = .withNode → ∃ n, c.nodes = [n])
    (hi : c.ignoreConflicts = true → (¬ ∀ n ∈ c.nodes, c.valid owner s.clone n = true) →
      ¬ Disagree c owner (c.pre owner s).value)
    (hr : c.reconnect = true → ¬ Cyclic s.value)
    (hl : ∀ g, ¬ Cyclic g → cyc g = []) (hl' : ∀ g, ¬ Cyclic g → cyc' g = [])
    (hp : (¬ ∀ n ∈ c.nodes, c.valid owner s.clone n = true) →
      ¬ Disagree c owner (c.pre owner s).value → c.prune = true →
      ¬ Cyclic (c.selfCut s.value (c.placed owner s)).value) :
    SameOutcome (c.modify cyc owner s) (c.modify cyc' owner s') := by
  have hf' := fits_same e hf
  have hpre := pre_same hs hs' hf e
  by_cases hv : ∀ n ∈ c.nodes, c.valid owner s.clone n = true
  · have hv' : ∀ n ∈ c.nodes, c.valid owner s'.clone n = true := fun n hn => (valid_same hs hs' e n).mp (hv n hn)
    rcases modify_cases cyc c owner hs hf with ⟨_, h⟩ | ⟨h, _⟩ | ⟨h, _⟩
    · rcases modify_cases cyc' c owner hs' hf' with ⟨_, h'⟩ | ⟨h', _⟩ | ⟨h', _⟩
      · rw [h, h']
        refine .graph ?_
        rw [HG.clone_value hs, HG.clone_value hs']; exact e
      · exact absurd hv' h'
      · exact absurd hv' h'
    · exact absurd hv h
    · exact absurd hv h
  have hv' : ¬ ∀ n ∈ c.nodes, c.valid owner s'.clone n = true := fun h =>
    hv fun n hn => (valid_same hs hs' e n).mpr (h n hn)
  by_cases hd : Disagree c owner (c.pre owner s).value
  · have hig : c.ignoreConflicts = false := by
      cases h : c.ignoreConflicts with
      | false => rfl
      | true => exact absurd hd (hi h hv)
    have P := pre_spec c owner hs hf
    have P' := pre_spec c owner hs' hf'
    have f1 := (loopEnd_flag c owner P.frame.ok P.fits P.noShare).mpr hd
    have f2 := (loopEnd_flag c owner P'.frame.ok P'.fits P'.noShare).mpr ((disagree_same hpre).mp hd)
    rcases modify_cases cyc c owner hs hf with ⟨h, _⟩ | ⟨_, _, _, h⟩ | ⟨_, h, _⟩
    · exact absurd h hv
    · rcases modify_cases cyc' c owner hs' hf' with ⟨h', _⟩ | ⟨_, _, _, h'⟩ | ⟨_, h', _⟩
      · exact absurd h' hv'
      · rw [h, h']; exact .raised _
      · exact absurd ⟨hig, f2⟩ h'
    · exact absurd ⟨hig, f1⟩ h
  have hd' : ¬ Disagree c owner (c.pre owner s').value := fun h => hd ((disagree_same hpre).mpr h)
  have Q := placed_spec c owner hs hf
  have Q' := placed_spec c owner hs' hf'
  have E := selfCut_edits c s.value (c.placed owner s)
  have E' := selfCut_edits c s'.value (c.placed owner s')
  have F := Q.frame.edits E
  have F' := Q'.frame.edits E'
  have R := reconnectAll_edits c owner s.value (c.selfCut s.value (c.placed owner s))
  have R' := reconnectAll_edits c owner s'.value (c.selfCut s'.value (c.placed owner s'))
  have hsame := selfCut_same hs hs' hf e hw hd
  have hkey : ∀ n, n ∈ Dict.keys s.graph ↔ n ∈ Dict.keys s'.graph := fun n => by
    have := e.keys n; rwa [HG.keys_value, HG.keys_value] at this
  have hedge : Edge (c.selfCut s.value (c.placed owner s)).value =
      Edge (c.selfCut s'.value (c.placed owner s')).value :=
    funext fun a => funext fun b => propext (by
      rw [HG.edge_value F.ok, HG.edge_value F'.ok]; exact hsame a b)
  rw [modify_unpruned cyc hs hf hv (fun h => hd h.2) (fun h => hl _ (hp hv hd h)),
    modify_unpruned cyc' hs' hf' hv' (fun h => hd' h.2) (fun h => hl' _ (by
      unfold Cyclic; rw [← hedge]; exact hp hv hd h))]
  refine .graph ⟨fun n => ?_, fun x r => ?_⟩
  · rw [HG.keys_value, HG.keys_value, (F.edits R).keys, (F'.edits R').keys]; exact hkey n
  · rw [HG.edge_value (F.edits R).ok, HG.edge_value (F'.edits R').ok]
    by_cases hrec : c.reconnect = true
    · have hb := hr hrec
      have hb' : ¬ Cyclic s'.value := by
        unfold Cyclic; rw [← e.fn]; exact hb
      rw [reconnectAll_mem (HG.wf_value hs) hb F.ok (by rw [F.keys, HG.keys_value])
          (fun n m h => Q.shares n m ((E.shares n m).mp h)) (trimmed_upstream hs hf hb hw hd),
        reconnectAll_mem (HG.wf_value hs') hb' F'.ok (by rw [F'.keys, HG.keys_value])
          (fun n m h => Q'.shares n m ((E'.shares n m).mp h)) (trimmed_upstream hs' hf' hb' hw hd'), hsame]
      unfold Reconnects
      rw [e.fn, hedge, hsame, hsame]
    · unfold reconnectAll; rw [if_neg hrec, if_neg hrec]; exact hsame x r

end
end OpCond
end GS

import Verif.GSCOps
/-! # In-place edits: preprocessing, pruning, reconnection -/

set_option linter.unusedSectionVars false

namespace GS
open Spec Relation
variable {α : Type _} [DecidableEq α]

/-- `add` or `remove`. -/
def edit (add : Bool) (x : α) : List α → List α := if add then setAdd x else setRemove x

/-- `t'` comes from `t` by adding or removing single elements of sets in place; `Q u add x r`
says which edits are possible in state `u`. -/
inductive Edits (Q : HG α → Bool → α → α → Prop) (t : HG α) : HG α → Prop
  | refl : Edits Q t t
  | step {u : HG α} {add : Bool} {x r : α} (h : Edits Q t u) (q : Q u add x r) :
      Edits Q t (u.upd r (edit add x))

namespace Edits
variable {Q : HG α → Bool → α → α → Prop} {t u v : HG α}

theorem trans (h : Edits Q t u) (h' : Edits Q u v) : Edits Q t v := by
  induction h' with
  | refl => exact h
  | step _ q ih => exact ih.step q

theorem mono {Q' : HG α → Bool → α → α → Prop} (hq : ∀ u b x r, Q u b x r → Q' u b x r)
    (h : Edits Q t u) : Edits Q' t u := by
  induction h with
  | refl => exact .refl
  | step _ q ih => exact ih.step (hq _ _ _ _ q)

theorem graph (h : Edits Q t u) : u.graph = t.graph := by
  induction h with
  | refl => rfl
  | step _ _ ih => rw [HG.graph_upd, ih]

theorem length (h : Edits Q t u) : u.heap.length = t.heap.length := by
  induction h with
  | refl => rfl
  | step _ _ ih => rw [HG.length_upd, ih]

theorem ok (h : Edits Q t u) (ht : t.Ok) : u.Ok :=
  ⟨by rw [h.graph]; exact ht.wf, by rw [h.graph, h.length]; exact ht.bound⟩

theorem shares (h : Edits Q t u) (n m : α) : u.Shares n m ↔ t.Shares n m := by
  unfold HG.Shares; rw [h.graph]

theorem read (h : Edits Q t u) (a : Addr) (ha : ∀ n, Dict.get? t.graph n ≠ some a) :
    u.heap.read a = t.heap.read a := by
  induction h with
  | refl => rfl
  | step h _ ih => rw [HG.read_upd _ _ _ a (by rw [h.graph]; exact ha), ih]

/-- Membership that no edit concerns does not change. -/
theorem mem_iff (ht : t.Ok) (y n : α) (h : Edits Q t u)
    (hq : ∀ u b r, Edits Q t u → Q u b y r → ¬ t.Shares r n) :
    y ∈ u.senders n ↔ y ∈ t.senders n := by
  induction h with
  | refl => exact Iff.rfl
  | @step u add x r h q ih =>
    rw [← ih]
    by_cases hsh : u.Shares r n
    · rw [HG.senders_upd_shared (h.ok ht) _ hsh]
      have hxy : y ≠ x := by
        intro e
        subst e
        exact hq u add r h q ((h.shares r n).mp hsh)
      unfold edit
      cases add <;> simp [hxy]
    · rw [HG.senders_upd_other (h.ok ht) _ hsh]

/-- What no removal concerns stays. -/
theorem mem_keep (ht : t.Ok) (y n : α) (h : Edits Q t u)
    (hq : ∀ u r, Edits Q t u → Q u false y r → ¬ t.Shares r n) :
    y ∈ t.senders n → y ∈ u.senders n := by
  intro hy
  induction h with
  | refl => exact hy
  | @step u add x r h q ih =>
    by_cases hsh : u.Shares r n
    · rw [HG.senders_upd_shared (h.ok ht) _ hsh]
      unfold edit
      cases add
      · have hxy : y ≠ x := by
          intro e
          subst e
          exact hq u r h q ((h.shares r n).mp hsh)
        simp [hxy, ih]
      · simp [ih]
    · rw [HG.senders_upd_other (h.ok ht) _ hsh]; exact ih

/-- What no addition concerns is not new. -/
theorem mem_old (ht : t.Ok) (y n : α) (h : Edits Q t u)
    (hq : ∀ u r, Edits Q t u → Q u true y r → ¬ t.Shares r n) :
    y ∈ u.senders n → y ∈ t.senders n := by
  induction h with
  | refl => exact id
  | @step u add x r h q ih =>
    intro hy
    by_cases hsh : u.Shares r n
    · rw [HG.senders_upd_shared (h.ok ht) _ hsh] at hy
      unfold edit at hy
      cases add
      · simp at hy; exact ih hy.1
      · have hxy : y ≠ x := by
          intro e
          subst e
          exact hq u r h q ((h.shares r n).mp hsh)
        simp [hxy] at hy
        exact ih hy
    · rw [HG.senders_upd_other (h.ok ht) _ hsh] at hy; exact ih hy

end Edits

namespace OpCond

/-! ## Preprocessing -/

theorem preprocess_edits (c : OpCond α) (owner : α) (s : HG α) :
    Edits (fun _ b x r => b = false ∧ ((x = owner ∧ r ∈ c.nodes) ∨ (x ∈ c.nodes ∧ r = owner))) s
      (c.preprocess owner s) := by
  have : ∀ (l : List α), (∀ n ∈ l, n ∈ c.nodes) → ∀ u : HG α,
      Edits (fun _ b x r => b = false ∧ ((x = owner ∧ r ∈ c.nodes) ∨ (x ∈ c.nodes ∧ r = owner))) u
      (l.foldl (fun s n => (s.upd n (setRemove owner)).upd owner (setRemove n)) u) := by
    intro l
    induction l with
    | nil => intro _ u; exact .refl
    | cons n l ih =>
      intro hl u
      have hn := hl n List.mem_cons_self
      rw [List.foldl_cons]
      refine Edits.trans ?_ (ih (fun m hm => hl m (List.mem_cons_of_mem _ hm)) _)
      exact (Edits.refl.step (add := false) (x := owner) (r := n) ⟨rfl, .inl ⟨rfl, hn⟩⟩).step
        (add := false) (x := n) (r := owner) ⟨rfl, .inr ⟨hn, rfl⟩⟩
  exact this c.nodes (fun _ h => h) s

theorem preprocess_mem (c : OpCond α) (owner : α) {s : HG α} (hs : s.Ok) (hf : c.Fits owner s)
    (hi : NoSharing s) (x r : α) :
    x ∈ (c.preprocess owner s).senders r ↔
      x ∈ s.senders r ∧ ¬ (x = owner ∧ r ∈ c.nodes) ∧ ¬ (x ∈ c.nodes ∧ r = owner) := by
  have hsh : ∀ n m, s.Shares n m → n = m := fun n m ⟨a, h1, h2⟩ => hi n m a h1 h2
  have E := preprocess_edits c owner s
  constructor
  · intro h
    have h1 := E.mem_old hs x r (fun _ _ _ q => by cases q.1) h
    refine ⟨h1, ?_⟩
    -- the removal has happened
    have gone : ∀ (l : List α) (u : HG α), u.Ok → u.graph = s.graph →
        ∀ y n, (y = owner ∧ n ∈ l) ∨ (y ∈ l ∧ n = owner) →
        y ∉ (l.foldl (fun s n => (s.upd n (setRemove owner)).upd owner (setRemove n)) u).senders n := by
      intro l
      induction l with
      | nil => intro u _ _ y n hn; rcases hn with ⟨_, h⟩ | ⟨h, _⟩ <;> cases h
      | cons m l ih =>
        intro u hu hg y n hyn
        rw [List.foldl_cons]
        have hu1 := hu.upd m (setRemove owner)
        have hu2 := hu1.upd owner (setRemove m)
        by_cases hin : (y = owner ∧ n ∈ l) ∨ (y ∈ l ∧ n = owner)
        · exact ih _ hu2 (by simp [hg]) y n hin
        · have hcase : (y = owner ∧ n = m) ∨ (y = m ∧ n = owner) := by
            rcases hyn with ⟨e, hm⟩ | ⟨hm, e⟩
            · rcases List.mem_cons.mp hm with e' | hm
              · exact .inl ⟨e, e'⟩
              · exact absurd (.inl ⟨e, hm⟩) hin
            · rcases List.mem_cons.mp hm with e' | hm
              · exact .inr ⟨e', e⟩
              · exact absurd (.inr ⟨hm, e⟩) hin
          have here : y ∉ ((u.upd m (setRemove owner)).upd owner (setRemove m)).senders n := by
            by_cases hk : n ∈ Dict.keys u.graph
            · rcases hcase with ⟨e1, e2⟩ | ⟨e1, e2⟩
              · subst e1; subst e2
                intro hmem
                by_cases hsh2 : (u.upd n (setRemove y)).Shares y n
                · rw [HG.senders_upd_shared hu1 _ hsh2, mem_setRemove, HG.senders_upd_self hu hk,
                    mem_setRemove] at hmem
                  exact hmem.1.2 rfl
                · rw [HG.senders_upd_other hu1 _ hsh2, HG.senders_upd_self hu hk, mem_setRemove] at hmem
                  exact hmem.2 rfl
              · subst e1; subst e2
                rw [HG.senders_upd_self hu1 (by simpa using hk), mem_setRemove]
                exact fun h => h.2 rfl
            · rw [HG.senders_none (by simpa using hk)]; simp
          -- later steps only remove
          have later : ∀ (l : List α) (u : HG α), u.Ok → ∀ y n,
              y ∈ (l.foldl (fun s n => (s.upd n (setRemove owner)).upd owner (setRemove n)) u).senders n →
              y ∈ u.senders n := by
            intro l
            induction l with
            | nil => intro u _ y n h; exact h
            | cons k l ih2 =>
              intro u hu y n h
              rw [List.foldl_cons] at h
              have hu1 := hu.upd k (setRemove owner)
              have := ih2 _ (hu1.upd owner (setRemove k)) y n h
              have E2 : Edits (fun _ b _ _ => b = false) u
                  ((u.upd k (setRemove owner)).upd owner (setRemove k)) :=
                (Edits.refl.step (add := false) (x := owner) (r := k) rfl).step
                  (add := false) (x := k) (r := owner) rfl
              exact E2.mem_old hu y n (fun _ _ _ q => by cases q) this
          exact fun hmem => here (later l _ hu2 y n hmem)
    have g := gone c.nodes s hs rfl x r
    exact ⟨fun h' => g (.inl h') h, fun h' => g (.inr h') h⟩
  · rintro ⟨h1, h2, h3⟩
    refine E.mem_keep hs x r (fun u r' _ q hshr => ?_) h1
    have := hsh r' r hshr
    subst this
    rcases q.2 with q | q
    · exact h2 q
    · exact h3 q

/-! ## Self-edges -/

theorem removeNewSelf_edits (base : Graph α) (s : HG α) :
    Edits (fun u b x r => b = false ∧ x = r ∧ x ∉ Dict.getD base x ∧ x ∈ u.senders r) s
      (removeNewSelf base s) := by
  unfold removeNewSelf
  generalize Dict.keys s.graph = l
  induction l generalizing s with
  | nil => exact .refl
  | cons n l ih =>
    rw [List.foldl_cons]
    refine Edits.trans ?_ (ih _)
    by_cases h1 : n ∉ Dict.getD base n
    · rw [if_pos h1]
      by_cases h2 : n ∈ s.senders n
      · rw [if_pos h2]
        exact Edits.refl.step (add := false) (x := n) (r := n) ⟨rfl, rfl, h1, h2⟩
      · rw [if_neg h2]; exact .refl
    · rw [if_neg h1]; exact .refl

/-! ## Pruning -/

/-- A removal that pruning may make. -/
def MayCut (c : OpCond α) (owner : α) (base : Graph α) (u : HG α) (b : Bool) (x r : α) : Prop :=
  b = false ∧ c.required owner x r = false ∧ x ∈ u.senders r ∧
    (x = owner ∨ r = owner ∨ r ∈ Dict.getD base x)

theorem cut_edits {Q : HG α → Bool → α → α → Prop} (u : HG α) (x r : α)
    (h : x ∈ u.senders r → Q u false x r) : Edits Q u (cut u x r) := by
  unfold cut
  by_cases hm : x ∈ u.senders r
  · rw [if_pos hm]
    exact Edits.refl.step (add := false) (x := x) (r := r) (h hm)
  · rw [if_neg hm]; exact .refl

theorem pruneOwnerEdge_edits (c : OpCond α) (owner : α) (base : Graph α) (idx : Nat) (cy : List α)
    (u : HG α) : Edits (c.MayCut owner base) u (c.pruneOwnerEdge owner base idx cy u) := by
  unfold pruneOwnerEdge
  simp only
  generalize (((c.toCheck cy).all fun n => owner ∈ Dict.getD (getAncestors base) n) ||
    !((c.toCheck cy).all fun n => owner ∈ Dict.getD (getDescendants base) n)) = f
  cases f
  · simp only [Bool.false_eq_true, if_false]
    split
    · exact .refl
    · rename_i hr
      refine cut_edits u _ _ fun hm => ⟨rfl, by simpa using hr, hm, .inr (.inl rfl)⟩
  · simp only [if_true]
    split
    · exact .refl
    · rename_i hr
      refine cut_edits u _ _ fun hm => ⟨rfl, by simpa using hr, hm, .inl rfl⟩

theorem pruneEdge_edits (c : OpCond α) (owner : α) (base : Graph α) (cy : List α) (u : HG α)
    (i : Nat) : Edits (c.MayCut owner base) u (c.pruneEdge owner base cy u i) := by
  unfold pruneEdge
  simp only
  split
  · exact pruneOwnerEdge_edits c owner base _ cy u
  · split
    · rename_i h
      exact cut_edits u _ _ fun hm => ⟨rfl, h.2.2, hm, .inr (.inr h.1)⟩
    · exact .refl

theorem pruneCycle_edits (c : OpCond α) (owner : α) (base : Graph α) (cy : List α) (u : HG α) :
    Edits (c.MayCut owner base) u (c.pruneCycle owner base cy u) := by
  unfold pruneCycle
  generalize List.range cy.length = l
  induction l generalizing u with
  | nil => exact .refl
  | cons i l ih =>
    rw [List.foldl_cons]
    exact (pruneEdge_edits c owner base cy u i).trans (ih _)

theorem pruneRound_edits (cyc : Graph α → List (List α)) (c : OpCond α) (owner : α) (base : Graph α)
    (todo : List (List α)) (u : HG α) :
    Edits (c.MayCut owner base) u (c.pruneRound cyc owner base todo u).1 ∧
    (c.pruneRound cyc owner base todo u).2 = cyc (c.pruneRound cyc owner base todo u).1.value := by
  have : ∀ (todo : List (List α)) (acc : HG α × List (List α)), acc.2 = cyc acc.1.value →
      let r := todo.foldl (fun acc cycle =>
        if cycle ∈ acc.2 then
          (c.pruneCycle owner base cycle acc.1, cyc (c.pruneCycle owner base cycle acc.1).value)
        else acc) acc
      Edits (c.MayCut owner base) acc.1 r.1 ∧ r.2 = cyc r.1.value := by
    intro todo
    induction todo with
    | nil => intro acc h; exact ⟨.refl, h⟩
    | cons cy todo ih =>
      intro acc h
      simp only [List.foldl_cons]
      by_cases hm : cy ∈ acc.2
      · rw [if_pos hm]
        obtain ⟨h1, h2⟩ := ih (c.pruneCycle owner base cy acc.1,
          cyc (c.pruneCycle owner base cy acc.1).value) rfl
        exact ⟨(pruneCycle_edits c owner base cy acc.1).trans h1, h2⟩
      · rw [if_neg hm]; exact ih acc h
  exact this todo (u, cyc u.value) rfl

/-! ### Termination -/

theorem sum_set (h : List Nat) (a : Nat) (v : Nat) : ∀ (ha : a < h.length),
    (h.set a v).sum + h[a] = h.sum + v := by
  induction h generalizing a with
  | nil => intro ha; simp at ha
  | cons x h ih =>
    intro ha
    cases a with
    | zero => simp; omega
    | succ a =>
      have := ih a (by simpa using ha)
      simp at this ⊢; omega

theorem heapSize_set (h : Heap α) (a : Addr) (v : List α) (ha : a < h.length) :
    heapSize (h.set a v) + (h.read a).length = heapSize h + v.length := by
  unfold heapSize
  have h1 : (h.set a v).map List.length = (h.map List.length).set a v.length := by
    rw [List.map_set]
  have h2 := sum_set (h.map List.length) a v.length (by simpa using ha)
  rw [h1]
  have h3 : (h.read a).length = (h.map List.length)[a]'(by simpa using ha) := by
    unfold Heap.read; simp [ha]
  rw [h3]
  exact h2

theorem setRemove_length {x : α} {l : List α} (h : x ∈ l) : (setRemove x l).length < l.length := by
  unfold setRemove
  apply Classical.byContradiction
  intro hn
  have h1 := List.length_filter_le (fun y => decide (y ≠ x)) l
  have h2 : (l.filter fun y => decide (y ≠ x)).length = l.length := by omega
  rw [List.length_filter_eq_length_iff] at h2
  simpa using h2 x h

/-- A sequence of real removals does nothing or makes the sets smaller. -/
theorem edits_size {Q : HG α → Bool → α → α → Prop} {t u : HG α} (ht : t.Ok)
    (hq : ∀ u b x r, Q u b x r → b = false ∧ x ∈ u.senders r) (h : Edits Q t u) :
    u = t ∨ heapSize u.heap < heapSize t.heap := by
  induction h with
  | refl => exact .inl rfl
  | @step u add x r h q ih =>
    obtain ⟨hb, hm⟩ := hq _ _ _ _ q
    subst hb
    right
    have hok := h.ok ht
    have hlt : heapSize (u.upd r (edit false x)).heap < heapSize u.heap := by
      have hk := HG.key_of_senders hm
      have e := get?_addr hk
      have hb := hok.bound r _ e
      have e2 : (u.upd r (edit false x)).heap =
          u.heap.set (u.addr r) (setRemove x (u.heap.read (u.addr r))) := by
        unfold HG.upd edit; rw [e]; simp
      rw [e2]
      have := heapSize_set u.heap (u.addr r) (setRemove x (u.heap.read (u.addr r))) hb
      have h3 : x ∈ u.heap.read (u.addr r) := by rw [← HG.senders_of e]; exact hm
      have := setRemove_length h3
      omega
    rcases ih with e | e
    · rw [← e]; exact hlt
    · omega

theorem mayCut_real {c : OpCond α} {owner : α} {base : Graph α} :
    ∀ u b x r, c.MayCut owner base u b x r → b = false ∧ x ∈ u.senders r :=
  fun _ _ _ _ h => ⟨h.1, h.2.2.1⟩

theorem pruneLoop_spec (cyc : Graph α → List (List α)) (c : OpCond α) (owner : α) (base : Graph α) :
    ∀ (fuel : Nat) (t : HG α), t.Ok → heapSize t.heap + 1 < fuel →
    ∃ u, c.pruneLoop cyc owner base fuel (cyc t.value) t = .ok u ∧
      Edits (c.MayCut owner base) t u ∧ (cyc t.value = [] → u = t) := by
  intro fuel
  induction fuel with
  | zero => intro t _ h; omega
  | succ fuel ih =>
    intro t ht hf
    unfold pruneLoop
    by_cases h0 : cyc t.value = []
    · rw [if_pos h0]; exact ⟨t, rfl, .refl, fun _ => rfl⟩
    · rw [if_neg h0]
      simp only
      obtain ⟨h1, h2⟩ := pruneRound_edits cyc c owner base (sortCycles (cyc t.value)) t
      by_cases h3 : cyc t.value = (c.pruneRound cyc owner base (sortCycles (cyc t.value)) t).2
      · rw [if_pos h3]
        exact ⟨_, rfl, h1, fun e => absurd e h0⟩
      · rw [if_neg h3]
        rcases edits_size ht mayCut_real h1 with e | e
        · rw [h2, e] at h3; exact absurd rfl h3
        · rw [h2]
          obtain ⟨u, u1, u2, _⟩ := ih _ (h1.ok ht) (by omega)
          exact ⟨u, u1, h1.trans u2, fun e => absurd e h0⟩

theorem pruneCycles_spec (cyc : Graph α → List (List α)) (c : OpCond α) (owner : α) (base : Graph α)
    (t : HG α) (ht : t.Ok) :
    ∃ u, c.pruneCycles cyc owner base t = .ok u ∧
      Edits (fun u b x r => c.prune = true ∧ c.MayCut owner base u b x r) t u ∧
      (cyc t.value = [] → u = t) := by
  unfold pruneCycles
  by_cases hp : c.prune = true
  · rw [if_pos hp]
    obtain ⟨u, u1, u2, u3⟩ := pruneLoop_spec cyc c owner base (heapSize t.heap + 2) t ht (by omega)
    exact ⟨u, u1, u2.mono fun _ _ _ _ h => ⟨hp, h⟩, u3⟩
  · rw [if_neg hp]; exact ⟨t, rfl, .refl, fun _ => rfl⟩

/-! ## Reconnection -/

/-- An addition that reconnection may make. -/
def MayAdd (c : OpCond α) (owner : α) (base : Graph α) (u : HG α) (b : Bool) (x r : α) : Prop :=
  b = true ∧ c.reconnect = true ∧ r ∉ c.nodes ∧ owner ∈ Dict.getD base r ∧ x ∈ Dict.getD base owner ∧
    (owner ∉ u.senders r ∨ x ∉ u.senders owner) ∧ x ∉ Dict.getD (getDescendants u.value) r

theorem reconnectStep_edits (c : OpCond α) (owner : α) (base : Graph α) (hr : c.reconnect = true)
    (x : α) (u : HG α) (r : α) : Edits (c.MayAdd owner base) u (c.reconnectStep owner base x u r) := by
  unfold reconnectStep
  split
  · rename_i h
    exact Edits.refl.step (add := true) (x := x) (r := r) ⟨rfl, hr, h⟩
  · exact .refl

theorem reconnectInner_edits (c : OpCond α) (owner : α) (base : Graph α) (hr : c.reconnect = true)
    (x : α) (l : List α) : ∀ u : HG α,
    Edits (c.MayAdd owner base) u (l.foldl (c.reconnectStep owner base x) u) := by
  induction l with
  | nil => intro u; exact .refl
  | cons r l ih =>
    intro u
    rw [List.foldl_cons]
    exact (reconnectStep_edits c owner base hr x u r).trans (ih _)

theorem reconnectAll_edits (c : OpCond α) (owner : α) (base : Graph α) (t : HG α) :
    Edits (c.MayAdd owner base) t (c.reconnectAll owner base t) := by
  unfold reconnectAll
  by_cases hr : c.reconnect = true
  · rw [if_pos hr]
    generalize Dict.getD base owner = l
    induction l generalizing t with
    | nil => exact .refl
    | cons x l ih =>
      rw [List.foldl_cons]
      exact (reconnectInner_edits c owner base hr x _ t).trans (ih _)
  · rw [if_neg hr]; exact .refl

end OpCond
end GS

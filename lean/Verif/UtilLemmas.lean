import Verif.Util
import Verif.GraphLemmas2
/-! # Lemmas about the graph functions of utilities.py -/

set_option linter.unusedSectionVars false

namespace GS
open Spec Relation
variable {α : Type _} [DecidableEq α]

@[simp] theorem mem_setAdd (x y : α) (l : List α) : y ∈ setAdd x l ↔ y = x ∨ y ∈ l := by
  unfold setAdd
  by_cases h : x ∈ l
  · rw [if_pos h]
    constructor
    · exact Or.inr
    · rintro (e | e)
      · exact e ▸ h
      · exact e
  · rw [if_neg h, List.mem_append, List.mem_singleton]; exact Or.comm

@[simp] theorem mem_setRemove (x y : α) (l : List α) : y ∈ setRemove x l ↔ y ∈ l ∧ y ≠ x := by
  unfold setRemove; simp

theorem getD_set (d : Graph α) (k : α) (v : List α) (k' : α) :
    Dict.getD (Dict.set d k v) k' = if k = k' then v else Dict.getD d k' := by
  unfold Dict.getD; rw [Dict.get?_set]; by_cases h : k = k' <;> simp [h]

theorem mem_getD_edge {g : Graph α} (hg : Dict.WF g) (s r : α) : s ∈ Dict.getD g r ↔ Edge g s r := by
  rw [edge_iff_get? hg]
  unfold Dict.getD
  cases h : Dict.get? g r <;> simp

theorem getD_of_not_key {g : Graph α} {n : α} (h : n ∉ Dict.keys g) : Dict.getD g n = [] := by
  unfold Dict.getD; rw [Dict.get?_eq_none.mpr h]

theorem mem_key_of_mem_getD {g : Graph α} {n x : α} (h : x ∈ Dict.getD g n) : n ∈ Dict.keys g := by
  apply Classical.byContradiction
  intro hn
  rw [getD_of_not_key hn] at h; cases h

theorem get?_map_keys (l : List α) (f : α → List α) (n : α) :
    Dict.get? (l.map fun k => (k, f k)) n = if n ∈ l then some (f n) else none := by
  induction l with
  | nil => simp
  | cons a l ih =>
    simp only [List.map_cons, Dict.get?_cons, ih, List.mem_cons]
    by_cases h : a = n
    · subst h; simp
    · have : n ≠ a := fun e => h e.symm
      simp [h, this]

theorem keys_map_keys (l : List α) (f : α → List α) :
    Dict.keys (l.map fun k => (k, f k)) = l := by
  simp [Dict.keys, List.map_map, Function.comp_def]

/-! ## Receivers -/

theorem mem_getD_addReceiver (rs : Graph α) (s node x n : α) :
    n ∈ Dict.getD (addReceiver rs s node) x ↔ n ∈ Dict.getD rs x ∨ (x = s ∧ n = node) := by
  unfold addReceiver
  rw [getD_set]
  by_cases h : s = x
  · subst h
    simp
    exact Or.comm
  · have : x ≠ s := fun e => h e.symm
    simp [h, this]

theorem keys_addReceiver (rs : Graph α) (s node x : α) :
    x ∈ Dict.keys (addReceiver rs s node) ↔ x ∈ Dict.keys rs ∨ x = s := by
  unfold addReceiver
  rw [Dict.keys_set]
  by_cases h : s ∈ Dict.keys rs
  · rw [if_pos h]
    constructor
    · exact Or.inl
    · rintro (e | e)
      · exact e
      · exact e ▸ h
  · rw [if_neg h]; simp

theorem foldl_addReceiver (l : List α) (node : α) : ∀ rs : Graph α, ∀ x,
    (∀ n, n ∈ Dict.getD (l.foldl (fun rs s => addReceiver rs s node) rs) x ↔
      n ∈ Dict.getD rs x ∨ (x ∈ l ∧ n = node)) ∧
    (x ∈ Dict.keys (l.foldl (fun rs s => addReceiver rs s node) rs) ↔ x ∈ Dict.keys rs ∨ x ∈ l) := by
  induction l with
  | nil => intro rs x; simp
  | cons a l ih =>
    intro rs x
    simp only [List.foldl_cons]
    have := ih (addReceiver rs a node) x
    refine ⟨fun n => ?_, ?_⟩
    · rw [this.1, mem_getD_addReceiver]
      simp only [List.mem_cons]
      constructor
      · rintro ((h | ⟨h1, h2⟩) | ⟨h1, h2⟩)
        · exact .inl h
        · exact .inr ⟨.inl h1, h2⟩
        · exact .inr ⟨.inr h1, h2⟩
      · rintro (h | ⟨h1 | h1, h2⟩)
        · exact .inl (.inl h)
        · exact .inl (.inr ⟨h1, h2⟩)
        · exact .inr ⟨h1, h2⟩
    · rw [this.2, keys_addReceiver]
      simp only [List.mem_cons]
      constructor
      · rintro ((h | h) | h)
        · exact .inl h
        · exact .inr (.inl h)
        · exact .inr (.inr h)
      · rintro (h | h | h)
        · exact .inl (.inl h)
        · exact .inl (.inr h)
        · exact .inr h

theorem foldl_getReceivers (g : Graph α) : ∀ rs : Graph α, ∀ x,
    (∀ n, n ∈ Dict.getD (g.foldl (fun rs p => p.2.foldl (fun rs s => addReceiver rs s p.1) rs) rs) x ↔
      n ∈ Dict.getD rs x ∨ Edge g x n) ∧
    (x ∈ Dict.keys (g.foldl (fun rs p => p.2.foldl (fun rs s => addReceiver rs s p.1) rs) rs) ↔
      x ∈ Dict.keys rs ∨ ∃ p ∈ g, x ∈ p.2) := by
  induction g with
  | nil => intro rs x; simp [Edge]
  | cons p g ih =>
    intro rs x
    simp only [List.foldl_cons]
    have h1 := ih (p.2.foldl (fun rs s => addReceiver rs s p.1) rs) x
    have h2 := foldl_addReceiver p.2 p.1 rs x
    refine ⟨fun n => ?_, ?_⟩
    · rw [h1.1, h2.1]
      unfold Edge
      constructor
      · rintro ((h | ⟨a, b⟩) | ⟨q, a, b⟩)
        · exact .inl h
        · exact .inr ⟨p, List.mem_cons_self, b.symm, a⟩
        · exact .inr ⟨q, List.mem_cons_of_mem _ a, b⟩
      · rintro (h | ⟨q, a, b1, b2⟩)
        · exact .inl (.inl h)
        · rcases List.mem_cons.mp a with e | a
          · subst e; exact .inl (.inr ⟨b2, b1.symm⟩)
          · exact .inr ⟨q, a, b1, b2⟩
    · rw [h1.2, h2.2]
      simp only [List.mem_cons, exists_eq_or_imp]
      constructor
      · rintro ((h | h) | h)
        · exact .inl h
        · exact .inr (.inl h)
        · exact .inr (.inr h)
      · rintro (h | h | h)
        · exact .inl (.inl h)
        · exact .inl (.inr h)
        · exact .inr h

theorem mem_getReceivers (g : Graph α) (s r : α) :
    r ∈ Dict.getD (getReceivers g) s ↔ Edge g s r := by
  unfold getReceivers
  rw [(foldl_getReceivers g _ s).1]
  have : Dict.getD ((Dict.keys g).map fun n => (n, ([] : List α))) s = [] := by
    unfold Dict.getD
    rw [get?_map_keys (Dict.keys g) (fun _ => []) s]
    by_cases h : s ∈ Dict.keys g <;> simp [h]
  simp [this]

theorem keys_getReceivers (g : Graph α) (s : α) :
    s ∈ Dict.keys (getReceivers g) ↔ IsNode g s := by
  unfold getReceivers
  rw [(foldl_getReceivers g _ s).2, keys_map_keys (Dict.keys g) (fun _ => []), key_iff]
  rfl

/-! ## networkx -/

theorem keys_nxOfDict (g : Graph α) (n : α) : n ∈ Dict.keys (nxOfDict g) ↔ IsNode g n := by
  unfold nxOfDict Toposort.addExtra Dict.keys IsNode
  simp only [List.map_append, List.map_map, List.mem_append, List.mem_map, Function.comp_def,
    mem_extraItems]
  constructor
  · rintro (⟨p, h1, h2⟩ | ⟨m, ⟨h1, h2⟩, e⟩)
    · exact .inl ⟨p, h1, h2⟩
    · subst e
      exact .inr (by simpa using h1)
  · rintro (⟨p, h1, h2⟩ | h)
    · exact .inl ⟨p, h1, h2⟩
    · by_cases hk : ∃ p ∈ g, p.1 = n
      · obtain ⟨p, h1, h2⟩ := hk
        exact .inl ⟨p, h1, h2⟩
      · refine .inr ⟨n, ⟨by simpa using h, ?_⟩, rfl⟩
        simpa using hk

theorem wf_nxOfDict {g : Graph α} (hg : Dict.WF g) : Dict.WF (nxOfDict g) := by
  have e : Dict.keys (nxOfDict g) = Dict.keys g ++ Toposort.extraItems g := by
    unfold nxOfDict Toposort.addExtra Dict.keys
    rw [List.map_append, List.map_map]
    congr 1
    exact List.map_id _
  unfold Dict.WF
  rw [e, List.nodup_append]
  refine ⟨hg, nodup_eraseDups' _, ?_⟩
  intro a ha b hb hab
  subst hab
  exact ((mem_extraItems g a).mp hb).2 ha

theorem mem_nxOfDict {g : Graph α} (hg : Dict.WF g) (s r : α) :
    s ∈ Dict.getD (nxOfDict g) r ↔ Edge g s r := by
  rw [mem_getD_edge (wf_nxOfDict hg)]; exact edge_addExtra g s r

theorem keys_nxReverse (G : NxGraph α) : Dict.keys (nxReverse G) = Dict.keys G := by
  unfold nxReverse Dict.keys
  rw [List.map_map]
  rfl

theorem getD_nxReverse (G : NxGraph α) (n : α) (hn : n ∈ Dict.keys G) :
    Dict.getD (nxReverse G) n = (Dict.keys G).filter fun u => n ∈ Dict.getD G u := by
  have e : nxReverse G = (Dict.keys G).map
      (fun k => (k, (Dict.keys G).filter fun u => k ∈ Dict.getD G u)) := by
    unfold nxReverse
    conv => rhs; unfold Dict.keys
    rw [List.map_map]
    rfl
  unfold Dict.getD
  rw [e, get?_map_keys (Dict.keys G) (fun k => (Dict.keys G).filter fun u => k ∈ Dict.getD G u),
    if_pos hn]
  rfl

/-- Every endpoint of an edge is a node. -/
def NxOk (G : NxGraph α) : Prop := Dict.WF G ∧ ∀ s r, r ∈ Dict.getD G s → r ∈ Dict.keys G

theorem mem_nxReverse {G : NxGraph α} (hG : NxOk G) (s r : α) :
    s ∈ Dict.getD (nxReverse G) r ↔ r ∈ Dict.getD G s := by
  by_cases hr : r ∈ Dict.keys G
  · rw [getD_nxReverse G r hr, List.mem_filter]
    simp only [decide_eq_true_eq]
    exact ⟨fun h => h.2, fun h => ⟨mem_key_of_mem_getD h, h⟩⟩
  · constructor
    · intro h
      have := mem_key_of_mem_getD h
      rw [keys_nxReverse] at this
      exact absurd this hr
    · intro h; exact absurd (hG.2 _ _ h) hr

theorem nxOk_nxOfDict {g : Graph α} (hg : Dict.WF g) : NxOk (nxOfDict g) := by
  refine ⟨wf_nxOfDict hg, fun s r h => ?_⟩
  rw [keys_nxOfDict]
  obtain ⟨p, hp, _, hr⟩ := (mem_nxOfDict hg r s).mp h
  exact .inr ⟨p, hp, hr⟩

theorem nxOk_nxReverse {G : NxGraph α} (hG : NxOk G) : NxOk (nxReverse G) := by
  refine ⟨?_, fun s r h => ?_⟩
  · unfold Dict.WF; rw [keys_nxReverse]; exact hG.1
  · rw [keys_nxReverse]
    exact mem_key_of_mem_getD ((mem_nxReverse hG r s).mp h)

theorem nxOk_toNx {g : Graph α} (hg : Dict.WF g) : NxOk (toNx g) := nxOk_nxReverse (nxOk_nxOfDict hg)

theorem mem_toNx {g : Graph α} (hg : Dict.WF g) (s r : α) :
    r ∈ Dict.getD (toNx g) s ↔ Edge g s r := by
  unfold toNx
  rw [mem_nxReverse (nxOk_nxOfDict hg), mem_nxOfDict hg]

theorem keys_toNx (g : Graph α) (n : α) : n ∈ Dict.keys (toNx g) ↔ IsNode g n := by
  unfold toNx; rw [keys_nxReverse, keys_nxOfDict]

/-! ### Back -/

theorem keys_ensureKey (g : Graph α) (n x : α) :
    x ∈ Dict.keys (ensureKey g n) ↔ x ∈ Dict.keys g ∨ x = n := by
  unfold ensureKey
  cases h : Dict.get? g n with
  | some v =>
    have hk : n ∈ Dict.keys g := Dict.get?_isSome.mp (by simp [h])
    constructor
    · exact .inl
    · rintro (e | e)
      · exact e
      · exact e ▸ hk
  | none =>
    have hk := Dict.get?_eq_none.mp h
    simp [Dict.keys_set, hk]

theorem getD_ensureKey (g : Graph α) (n x : α) : Dict.getD (ensureKey g n) x = Dict.getD g x := by
  unfold ensureKey
  cases h : Dict.get? g n with
  | some v => rfl
  | none =>
    simp only
    rw [getD_set]
    by_cases hx : n = x
    · subst hx; rw [if_pos rfl]; unfold Dict.getD; rw [h]
    · rw [if_neg hx]

theorem wf_ensureKey {g : Graph α} (hg : Dict.WF g) (n : α) : Dict.WF (ensureKey g n) := by
  unfold ensureKey
  cases h : Dict.get? g n with
  | some v => exact hg
  | none => exact Dict.WF.set hg _ _

theorem getD_addSender (g : Graph α) (s r x y : α) :
    y ∈ Dict.getD (addSender g s r) x ↔ y ∈ Dict.getD g x ∨ (x = r ∧ y = s) := by
  unfold addSender
  rw [getD_set, getD_ensureKey]
  by_cases h : r = x
  · subst h; simp; exact Or.comm
  · have : x ≠ r := fun e => h e.symm
    simp [h, this, getD_ensureKey]

theorem keys_addSender (g : Graph α) (s r x : α) :
    x ∈ Dict.keys (addSender g s r) ↔ x ∈ Dict.keys g ∨ x = r := by
  unfold addSender
  have : r ∈ Dict.keys (ensureKey g r) := (keys_ensureKey g r r).mpr (.inr rfl)
  rw [Dict.keys_set, if_pos this, keys_ensureKey]

theorem wf_addSender {g : Graph α} (hg : Dict.WF g) (s r : α) : Dict.WF (addSender g s r) :=
  Dict.WF.set (wf_ensureKey hg r) _ _

theorem foldl_addSender (l : List α) (s : α) : ∀ g : Graph α, Dict.WF g →
    Dict.WF (l.foldl (fun res rec => addSender res s rec) g) ∧
    (∀ x y, y ∈ Dict.getD (l.foldl (fun res rec => addSender res s rec) g) x ↔
      y ∈ Dict.getD g x ∨ (x ∈ l ∧ y = s)) ∧
    (∀ x, x ∈ Dict.keys (l.foldl (fun res rec => addSender res s rec) g) ↔
      x ∈ Dict.keys g ∨ x ∈ l) := by
  induction l with
  | nil => intro g hg; simp [hg]
  | cons a l ih =>
    intro g hg
    simp only [List.foldl_cons]
    obtain ⟨h1, h2, h3⟩ := ih (addSender g s a) (wf_addSender hg s a)
    refine ⟨h1, fun x y => ?_, fun x => ?_⟩
    · rw [h2, getD_addSender, List.mem_cons]
      constructor
      · rintro ((h | ⟨a, b⟩) | ⟨a, b⟩)
        · exact .inl h
        · exact .inr ⟨.inl a, b⟩
        · exact .inr ⟨.inr a, b⟩
      · rintro (h | ⟨a | a, b⟩)
        · exact .inl (.inl h)
        · exact .inl (.inr ⟨a, b⟩)
        · exact .inr ⟨a, b⟩
    · rw [h3, keys_addSender, List.mem_cons, or_assoc]

theorem fromNx_fold (b : Bool) (G : NxGraph α) : ∀ g : Graph α, Dict.WF g →
    Dict.WF (G.foldl (fun res p =>
      p.2.foldl (fun res rec => addSender res p.1 rec) (if b then ensureKey res p.1 else res)) g) ∧
    (∀ x y, y ∈ Dict.getD (G.foldl (fun res p =>
      p.2.foldl (fun res rec => addSender res p.1 rec) (if b then ensureKey res p.1 else res)) g) x ↔
      y ∈ Dict.getD g x ∨ ∃ p ∈ G, p.1 = y ∧ x ∈ p.2) ∧
    (∀ x, x ∈ Dict.keys (G.foldl (fun res p =>
      p.2.foldl (fun res rec => addSender res p.1 rec) (if b then ensureKey res p.1 else res)) g) ↔
      x ∈ Dict.keys g ∨ (∃ p ∈ G, x ∈ p.2) ∨ (b = true ∧ ∃ p ∈ G, p.1 = x)) := by
  induction G with
  | nil => intro g hg; simp [hg]
  | cons p G ih =>
    intro g hg
    simp only [List.foldl_cons]
    have hg1 : Dict.WF (if b then ensureKey g p.1 else g) := by
      cases b
      · exact hg
      · exact wf_ensureKey hg _
    have hgd : ∀ x, Dict.getD (if b then ensureKey g p.1 else g) x = Dict.getD g x := by
      intro x
      cases b
      · rfl
      · exact getD_ensureKey g p.1 x
    have hgk : ∀ x, x ∈ Dict.keys (if b then ensureKey g p.1 else g) ↔
        x ∈ Dict.keys g ∨ (b = true ∧ p.1 = x) := by
      intro x
      cases b
      · simp
      · simp [keys_ensureKey, eq_comm]
    obtain ⟨f1, f2, f3⟩ := foldl_addSender p.2 p.1 _ hg1
    obtain ⟨h1, h2, h3⟩ := ih _ f1
    refine ⟨h1, fun x y => ?_, fun x => ?_⟩
    · rw [h2, f2, hgd]
      simp only [List.mem_cons, exists_eq_or_imp]
      constructor
      · rintro ((h | ⟨a, b⟩) | h)
        · exact .inl h
        · exact .inr (.inl ⟨b.symm, a⟩)
        · exact .inr (.inr h)
      · rintro (h | ⟨b, a⟩ | h)
        · exact .inl (.inl h)
        · exact .inl (.inr ⟨a, b.symm⟩)
        · exact .inr h
    · rw [h3, f3, hgk]
      simp only [List.mem_cons, exists_eq_or_imp]
      constructor
      · rintro (((h | ⟨h1, h2⟩) | h) | h | ⟨h1, h2⟩)
        · exact .inl h
        · exact .inr (.inr ⟨h1, .inl h2⟩)
        · exact .inr (.inl (.inl h))
        · exact .inr (.inl (.inr h))
        · exact .inr (.inr ⟨h1, .inr h2⟩)
      · rintro (h | (h | h) | ⟨h1, h2 | h2⟩)
        · exact .inl (.inl (.inl h))
        · exact .inl (.inr h)
        · exact .inr (.inl h)
        · exact .inl (.inl (.inr ⟨h1, h2⟩))
        · exact .inr (.inr ⟨h1, h2⟩)

theorem fromNx_spec (b : Bool) {G : NxGraph α} (hG : NxOk G) :
    Dict.WF (fromNx b G) ∧ (∀ s r, Edge (fromNx b G) s r ↔ r ∈ Dict.getD G s) ∧
    (∀ n, n ∈ Dict.keys (fromNx b G) ↔
      (∃ s, n ∈ Dict.getD G s) ∨ (b = true ∧ n ∈ Dict.keys G)) := by
  obtain ⟨h1, h2, h3⟩ := fromNx_fold b G ([] : Graph α) (by simp [Dict.WF])
  refine ⟨h1, fun s r => ?_, fun n => ?_⟩
  · unfold fromNx
    rw [← mem_getD_edge h1, h2]
    have := mem_getD_edge hG.1 r s
    rw [this]
    simp [Edge, Dict.getD]
  · unfold fromNx
    rw [h3]
    simp only [Dict.keys_nil, List.not_mem_nil, false_or]
    have e1 : (∃ p ∈ G, n ∈ p.2) ↔ ∃ s, n ∈ Dict.getD G s := by
      constructor
      · rintro ⟨p, hp, hn⟩
        exact ⟨p.1, (mem_getD_edge hG.1 n p.1).mpr ⟨p, hp, rfl, hn⟩⟩
      · rintro ⟨s, hs⟩
        obtain ⟨p, hp, _, hn⟩ := (mem_getD_edge hG.1 n s).mp hs
        exact ⟨p, hp, hn⟩
    rw [e1, ← key_iff G n]

/-! ## Reachability -/

theorem mem_bfsStep (G : NxGraph α) (x : α) (f : List α) (r : α) :
    r ∈ bfsStep G x f ↔ r ∈ Dict.keys G ∧ (r ∈ Dict.getD G x ∨ ∃ s ∈ f, r ∈ Dict.getD G s) := by
  unfold bfsStep; simp

theorem bfs_mono (G : NxGraph α) (x : α) : ∀ k r, r ∈ bfs G x k → r ∈ bfs G x (k + 1)
  | 0, r, h => by simp [bfs] at h
  | k + 1, r, h => by
    rw [bfs, mem_bfsStep] at h ⊢
    refine ⟨h.1, ?_⟩
    rcases h.2 with h | ⟨s, h1, h2⟩
    · exact .inl h
    · exact .inr ⟨s, bfs_mono G x k s h1, h2⟩

theorem filter_len_lt {p q : α → Bool} : ∀ (l : List α), (∀ a ∈ l, p a = true → q a = true) →
    (l.filter p).length ≤ (l.filter q).length ∧
    ((∃ a ∈ l, q a = true ∧ p a = false) → (l.filter p).length < (l.filter q).length)
  | [], _ => by simp
  | a :: l, h => by
    have ih := filter_len_lt l (fun b hb => h b (List.mem_cons_of_mem _ hb))
    have ha := h a List.mem_cons_self
    cases hp : p a <;> cases hq : q a
    · simp only [List.filter_cons, hp, hq]
      refine ⟨ih.1, ?_⟩
      rintro ⟨b, hb, h1, h2⟩
      rcases List.mem_cons.mp hb with e | hb
      · subst e; simp [hq] at h1
      · exact ih.2 ⟨b, hb, h1, h2⟩
    · simp [List.filter_cons, hp, hq]
      omega
    · simp [hp, hq] at ha
    · simp only [List.filter_cons, hp, hq]
      refine ⟨by simp [ih.1], ?_⟩
      rintro ⟨b, hb, h1, h2⟩
      rcases List.mem_cons.mp hb with e | hb
      · subst e; simp [hp] at h2
      · simpa using ih.2 ⟨b, hb, h1, h2⟩

theorem bfs_len (G : NxGraph α) (x : α) (k : Nat) :
    (∀ r, r ∈ bfs G x (k + 1) → r ∈ bfs G x k) ∨ (bfs G x k).length < (bfs G x (k + 1)).length := by
  by_cases h : ∃ r, r ∈ bfs G x (k + 1) ∧ r ∉ bfs G x k
  · right
    obtain ⟨r, h1, h2⟩ := h
    cases k with
    | zero =>
      cases hb : bfs G x (0 + 1) with
      | nil => rw [hb] at h1; cases h1
      | cons a l => simp [bfs]
    | succ k =>
      have hm := bfs_mono G x k
      simp only [bfs] at h1 h2 ⊢
      unfold bfsStep
      refine (filter_len_lt (Dict.keys G) ?_).2 ?_
      · intro a _ ha
        simp only [Bool.or_eq_true, decide_eq_true_eq, List.any_eq_true] at ha ⊢
        rcases ha with ha | ⟨s, hs, ha⟩
        · exact .inl ha
        · exact .inr ⟨s, hm s hs, ha⟩
      · rw [mem_bfsStep] at h1 h2
        refine ⟨r, h1.1, ?_, ?_⟩
        · simp only [Bool.or_eq_true, decide_eq_true_eq, List.any_eq_true]
          exact h1.2
        · rw [Bool.eq_false_iff]
          intro hc
          simp only [Bool.or_eq_true, decide_eq_true_eq, List.any_eq_true] at hc
          exact h2 ⟨h1.1, hc⟩
  · left
    intro r hr
    exact Classical.byContradiction fun hn => h ⟨r, hr, hn⟩

theorem bfs_stable (G : NxGraph α) (x : α) {k : Nat}
    (h : ∀ r, r ∈ bfs G x (k + 1) → r ∈ bfs G x k) :
    ∀ r, r ∈ bfs G x (k + 1 + 1) → r ∈ bfs G x (k + 1) := by
  intro r hr
  rw [bfs, mem_bfsStep] at hr ⊢
  refine ⟨hr.1, ?_⟩
  rcases hr.2 with hr | ⟨s, h1, h2⟩
  · exact .inl hr
  · exact .inr ⟨s, h s h1, h2⟩

/-- After as many rounds as there are nodes the search is complete. -/
theorem bfs_closed (G : NxGraph α) (x : α) :
    ∀ r, r ∈ bfs G x (G.length + 1) → r ∈ bfs G x G.length := by
  have key : ∀ k, (∀ r, r ∈ bfs G x (k + 1) → r ∈ bfs G x k) ∨ k < (bfs G x (k + 1)).length := by
    intro k
    induction k with
    | zero =>
      rcases bfs_len G x 0 with h | h
      · exact .inl h
      · right; omega
    | succ k ih =>
      rcases ih with h | h
      · exact .inl (bfs_stable G x h)
      · rcases bfs_len G x (k + 1) with h2 | h2
        · exact .inl h2
        · right; omega
  rcases key G.length with h | h
  · exact h
  · exfalso
    have : (bfs G x (G.length + 1)).length ≤ (Dict.keys G).length := by
      rw [bfs]; unfold bfsStep; exact List.length_filter_le _ _
    have e : (Dict.keys G).length = G.length := by simp [Dict.keys]
    omega

theorem mem_bfs {G : NxGraph α} (hG : NxOk G) (x r : α) :
    r ∈ bfs G x G.length ↔ TransGen (fun s r => r ∈ Dict.getD G s) x r := by
  constructor
  · have : ∀ k r, r ∈ bfs G x k → TransGen (fun s r => r ∈ Dict.getD G s) x r := by
      intro k
      induction k with
      | zero => intro r h; simp [bfs] at h
      | succ k ih =>
        intro r h
        rw [bfs, mem_bfsStep] at h
        rcases h.2 with h | ⟨s, h1, h2⟩
        · exact .single h
        · exact .tail (ih s h1) h2
    exact this _ r
  · intro h
    induction h with
    | single h =>
      apply bfs_closed
      rw [bfs, mem_bfsStep]
      exact ⟨hG.2 _ _ h, .inl h⟩
    | tail _ h ih =>
      apply bfs_closed
      rw [bfs, mem_bfsStep]
      exact ⟨hG.2 _ _ h, .inr ⟨_, ih, h⟩⟩

theorem mem_nxDescendants {G : NxGraph α} (hG : NxOk G) (x r : α) :
    r ∈ nxDescendants G x ↔ r ≠ x ∧ TransGen (fun s r => r ∈ Dict.getD G s) x r := by
  unfold nxDescendants
  rw [mem_setRemove, mem_bfs hG]
  exact And.comm

theorem transGen_swap {r : α → α → Prop} {a b : α} (h : TransGen r a b) :
    TransGen (fun x y => r y x) b a := by
  induction h with
  | single h => exact .single h
  | tail _ h ih => exact TransGen.trans (.single h) ih

theorem transGen_congr {r q : α → α → Prop} (h : ∀ a b, r a b → q a b) {a b : α}
    (t : TransGen r a b) : TransGen q a b := by
  induction t with
  | single t => exact .single (h _ _ t)
  | tail _ t ih => exact .tail ih (h _ _ t)

/-- utilities.py:295-305: the descendants of a node. -/
theorem mem_descendants {g : Graph α} (hg : Dict.WF g) {n : α} (hn : n ∈ Dict.keys g) (m : α) :
    m ∈ Dict.getD (getDescendants g) n ↔ m ≠ n ∧ TransGen (Edge g) n m := by
  have e : Dict.getD (getDescendants g) n = nxDescendants (toNx g) n := by
    unfold Dict.getD getDescendants
    rw [get?_map_keys (Dict.keys g) (fun n => nxDescendants (toNx g) n), if_pos hn]
  rw [e, mem_nxDescendants (nxOk_toNx hg)]
  refine and_congr_right fun _ => ⟨transGen_congr fun a b h => ?_, transGen_congr fun a b h => ?_⟩
  · exact (mem_toNx hg a b).mp h
  · exact (mem_toNx hg a b).mpr h

/-- utilities.py:282-292: the ancestors of a node. -/
theorem mem_ancestors {g : Graph α} (hg : Dict.WF g) {n : α} (hn : n ∈ Dict.keys g) (m : α) :
    m ∈ Dict.getD (getAncestors g) n ↔ m ≠ n ∧ TransGen (Edge g) m n := by
  have e : Dict.getD (getAncestors g) n = nxAncestors (toNx g) n := by
    unfold Dict.getD getAncestors
    rw [get?_map_keys (Dict.keys g) (fun n => nxAncestors (toNx g) n), if_pos hn]
  rw [e]
  unfold nxAncestors
  rw [mem_nxDescendants (nxOk_nxReverse (nxOk_toNx hg))]
  refine and_congr_right fun _ => ⟨fun t => ?_, fun t => ?_⟩
  · have := transGen_swap t
    refine transGen_congr (fun a b h => ?_) this
    rw [mem_nxReverse (nxOk_toNx hg)] at h
    exact (mem_toNx hg a b).mp h
  · have := transGen_swap t
    refine transGen_congr (fun a b h => ?_) this
    rw [mem_nxReverse (nxOk_toNx hg)]
    exact (mem_toNx hg b a).mpr h

/-! ## Cloning -/

theorem get?_cloneRaw_fold (g : Dict α (Deps α)) : ∀ res : Graph α, ∀ n,
    Dict.WF g →
    Dict.get? (g.foldl (fun res p => Dict.set res p.1 p.2.toSet) res) n =
      match Dict.get? g n with
      | some d => some d.toSet
      | none => Dict.get? res n := by
  induction g with
  | nil => intro res n _; rfl
  | cons p g ih =>
    intro res n hg
    simp only [List.foldl_cons]
    obtain ⟨k, v⟩ := p
    have hg' : k ∉ Dict.keys g ∧ Dict.WF g := by simpa [Dict.WF] using hg
    rw [ih _ n hg'.2, Dict.get?_cons, Dict.get?_set]
    by_cases h : k = n
    · subst h
      rw [Dict.get?_eq_none.mpr hg'.1]
      simp
    · simp [h]

end GS

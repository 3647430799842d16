import Verif.GSC
import Verif.UtilLemmas
/-! # Set objects: what in-place changes and clones do -/

set_option linter.unusedSectionVars false

namespace GS
open Spec Relation
variable {α : Type _} [DecidableEq α]

theorem read_append_left (h h' : Heap α) {a : Addr} (ha : a < h.length) :
    Heap.read (h ++ h') a = h.read a := by
  unfold Heap.read; rw [List.getElem?_append_left ha]

theorem read_append_self (h : Heap α) (v : List α) : Heap.read (h ++ [v]) h.length = v := by
  unfold Heap.read; simp

theorem read_set (h : Heap α) (a b : Addr) (v : List α) (ha : a < h.length) :
    Heap.read (h.set a v) b = if a = b then v else h.read b := by
  unfold Heap.read
  rw [List.getElem?_set]
  by_cases e : a = b
  · subst e; simp [ha]
  · simp [e]

namespace HG

/-- A dict has distinct keys, and its values are existing objects. -/
structure Ok (s : HG α) : Prop where
  wf : Dict.WF s.graph
  bound : ∀ n a, Dict.get? s.graph n = some a → a < s.heap.length

/-- Two nodes whose sets are the same object. -/
def Shares (s : HG α) (n m : α) : Prop :=
  ∃ a, Dict.get? s.graph n = some a ∧ Dict.get? s.graph m = some a

/-- The set of `n` belongs to no other node. -/
def Private (s : HG α) (n : α) : Prop := ∀ m, s.Shares n m → m = n

theorem senders_of {s : HG α} {n : α} {a : Addr} (h : Dict.get? s.graph n = some a) :
    s.senders n = s.heap.read a := by unfold senders; rw [h]

theorem senders_none {s : HG α} {n : α} (h : n ∉ Dict.keys s.graph) : s.senders n = [] := by
  unfold senders; rw [Dict.get?_eq_none.mpr h]

theorem key_of_senders {s : HG α} {n x : α} (h : x ∈ s.senders n) : n ∈ Dict.keys s.graph :=
  Classical.byContradiction fun hn => by rw [senders_none hn] at h; cases h

theorem Shares.senders_eq {s : HG α} {n m : α} (h : s.Shares n m) : s.senders n = s.senders m := by
  obtain ⟨a, h1, h2⟩ := h
  rw [senders_of h1, senders_of h2]

theorem Shares.symm {s : HG α} {n m : α} (h : s.Shares n m) : s.Shares m n := by
  obtain ⟨a, h1, h2⟩ := h; exact ⟨a, h2, h1⟩

theorem shares_self {s : HG α} {n : α} (h : n ∈ Dict.keys s.graph) : s.Shares n n := by
  have := Dict.get?_isSome.mpr h
  cases e : Dict.get? s.graph n with
  | none => rw [e] at this; cases this
  | some a => exact ⟨a, e, e⟩

@[simp] theorem graph_upd (s : HG α) (n : α) (f : List α → List α) : (s.upd n f).graph = s.graph := by
  unfold upd; cases Dict.get? s.graph n <;> rfl

@[simp] theorem length_upd (s : HG α) (n : α) (f : List α → List α) :
    (s.upd n f).heap.length = s.heap.length := by
  unfold upd; cases Dict.get? s.graph n <;> simp

theorem Ok.upd {s : HG α} (h : s.Ok) (n : α) (f : List α → List α) : (s.upd n f).Ok := by
  constructor
  · rw [graph_upd]; exact h.wf
  · intro m a; rw [graph_upd, length_upd]; exact h.bound m a

theorem shares_upd (s : HG α) (n : α) (f : List α → List α) (x y : α) :
    (s.upd n f).Shares x y ↔ s.Shares x y := by unfold Shares; rw [graph_upd]

theorem senders_upd_shared {s : HG α} (h : s.Ok) {n m : α} (f : List α → List α)
    (hs : s.Shares n m) : (s.upd n f).senders m = f (s.senders m) := by
  obtain ⟨a, h1, h2⟩ := hs
  have e : (s.upd n f) = { s with heap := s.heap.set a (f (s.heap.read a)) } := by
    unfold HG.upd; rw [h1]
  rw [e]
  unfold senders
  simp only [h2]
  rw [read_set _ _ _ _ (h.bound _ _ h1), if_pos rfl]

theorem senders_upd_other {s : HG α} (h : s.Ok) {n m : α} (f : List α → List α)
    (hs : ¬ s.Shares n m) : (s.upd n f).senders m = s.senders m := by
  unfold HG.upd
  cases h1 : Dict.get? s.graph n with
  | none => rfl
  | some a =>
    unfold senders
    simp only
    cases h2 : Dict.get? s.graph m with
    | none => rfl
    | some b =>
      simp only
      have : a ≠ b := fun e => hs ⟨a, h1, by rw [h2, e]⟩
      rw [read_set _ _ _ _ (h.bound _ _ h1), if_neg this]

theorem senders_upd_self {s : HG α} (h : s.Ok) {n : α} (hn : n ∈ Dict.keys s.graph)
    (f : List α → List α) : (s.upd n f).senders n = f (s.senders n) :=
  senders_upd_shared h f (shares_self hn)

theorem senders_upd_private {s : HG α} (h : s.Ok) {n m : α} (hn : n ∈ Dict.keys s.graph)
    (hp : s.Private n) (f : List α → List α) :
    (s.upd n f).senders m = if m = n then f (s.senders n) else s.senders m := by
  by_cases e : m = n
  · subst e; rw [if_pos rfl]; exact senders_upd_self h hn f
  · rw [if_neg e]; exact senders_upd_other h f fun hs => e (hp m hs)

/-- An object that no node's set is. -/
theorem read_upd (s : HG α) (n : α) (f : List α → List α) (a : Addr)
    (ha : ∀ m, Dict.get? s.graph m ≠ some a) : (s.upd n f).heap.read a = s.heap.read a := by
  unfold HG.upd
  cases h1 : Dict.get? s.graph n with
  | none => rfl
  | some b =>
    have : b ≠ a := fun e => ha n (by rw [h1, e])
    simp only [Heap.read]
    rw [List.getElem?_set_ne this]

/-! ## Values -/

theorem keys_value (s : HG α) : Dict.keys s.value = Dict.keys s.graph := by
  unfold value Dict.keys; rw [List.map_map]; rfl

theorem wf_value {s : HG α} (h : s.Ok) : Dict.WF s.value := by
  unfold Dict.WF; rw [keys_value]; exact h.wf

theorem get?_map_snd {β γ : Type _} (d : Dict α β) (f : β → γ) (n : α) :
    Dict.get? (d.map fun p => (p.1, f p.2)) n = (Dict.get? d n).map f := by
  induction d with
  | nil => rfl
  | cons p d ih =>
    obtain ⟨k, v⟩ := p
    simp only [List.map_cons, Dict.get?_cons, ih]
    by_cases h : k = n <;> simp [h]

theorem getD_value (s : HG α) (n : α) : Dict.getD s.value n = s.senders n := by
  unfold value Dict.getD senders
  rw [get?_map_snd s.graph (fun a => s.heap.read a) n]
  cases Dict.get? s.graph n <;> rfl

theorem edge_value {s : HG α} (h : s.Ok) (x r : α) : Edge s.value x r ↔ x ∈ s.senders r := by
  rw [← mem_getD_edge (wf_value h), getD_value]

theorem value_congr {s t : HG α} (hg : s.graph = t.graph) (h : ∀ n, s.senders n = t.senders n)
    (hs : s.Ok) : s.value = t.value := by
  unfold value
  rw [← hg]
  apply List.map_congr_left
  intro p hp
  have h1 : Dict.get? s.graph p.1 = some p.2 := Dict.get?_of_mem hs.wf (by exact hp)
  have h2 : Dict.get? t.graph p.1 = some p.2 := by rw [← hg]; exact h1
  have := h p.1
  rw [senders_of h1, senders_of h2] at this
  rw [this]

/-! ## Cloning -/

theorem cloneFrom_prefix (g : Dict α Addr) : ∀ h : Heap α, ∃ t, (cloneFrom h g).heap = h ++ t := by
  induction g with
  | nil => intro h; exact ⟨[], by simp [cloneFrom]⟩
  | cons p g ih =>
    intro h
    obtain ⟨k, a⟩ := p
    obtain ⟨t, ht⟩ := ih (h ++ [h.read a])
    exact ⟨h.read a :: t, by rw [cloneFrom]; simp only [ht, List.append_assoc, List.cons_append, List.nil_append]⟩

theorem keys_cloneFrom (g : Dict α Addr) : ∀ h : Heap α,
    Dict.keys (cloneFrom h g).graph = Dict.keys g := by
  induction g with
  | nil => intro h; rfl
  | cons p g ih => intro h; obtain ⟨k, a⟩ := p; simp [cloneFrom, ih]

theorem get?_cloneFrom (g : Dict α Addr) : ∀ h : Heap α, (∀ n a, Dict.get? g n = some a → a < h.length) →
    Dict.WF g → ∀ n,
    (Dict.get? g n = none → Dict.get? (cloneFrom h g).graph n = none) ∧
    (∀ a, Dict.get? g n = some a → ∃ b, Dict.get? (cloneFrom h g).graph n = some b ∧ h.length ≤ b ∧
      b < (cloneFrom h g).heap.length ∧ (cloneFrom h g).heap.read b = h.read a) := by
  induction g with
  | nil => intro h _ _ n; exact ⟨fun _ => rfl, fun a ha => by cases ha⟩
  | cons p g ih =>
    intro h hb wf n
    obtain ⟨k, a⟩ := p
    have hwf : k ∉ Dict.keys g ∧ Dict.WF g := by simpa [Dict.WF] using wf
    have ha : a < h.length := hb k a (by rw [Dict.get?_cons]; simp)
    have hb' : ∀ n b, Dict.get? g n = some b → b < (h ++ [h.read a]).length := by
      intro m b hm
      have hk : m ∈ Dict.keys g := Dict.get?_isSome.mp (by simp [hm])
      have hne : k ≠ m := fun e => hwf.1 (e ▸ hk)
      have := hb m b (by rw [Dict.get?_cons, if_neg hne]; exact hm)
      simp only [List.length_append, List.length_cons, List.length_nil]
      exact Nat.lt_of_lt_of_le this (Nat.le_succ _)
    obtain ⟨t, ht⟩ := cloneFrom_prefix g (h ++ [h.read a])
    have h1 := ih (h ++ [h.read a]) hb' hwf.2 n
    by_cases hk : k = n
    · subst hk
      rw [cloneFrom]
      simp only [Dict.get?_cons, if_true]
      refine ⟨fun e => (by simp at e), fun b e => ?_⟩
      cases e
      refine ⟨h.length, rfl, Nat.le_refl _, ?_, ?_⟩
      · rw [ht]; simp
      · rw [ht, List.append_assoc]
        unfold Heap.read
        rw [List.getElem?_append_right (Nat.le_refl _)]
        simp
    · rw [cloneFrom]
      simp only [Dict.get?_cons, if_neg hk]
      refine ⟨h1.1, fun b e => ?_⟩
      obtain ⟨b', e1, e2, e3, e4⟩ := h1.2 b e
      refine ⟨b', e1, by simp at e2; omega, e3, ?_⟩
      rw [e4]
      have : b < h.length := hb n b (by rw [Dict.get?_cons, if_neg hk]; exact e)
      exact read_append_left h _ this

theorem cloneFrom_inj (g : Dict α Addr) : ∀ h : Heap α, Dict.WF g → ∀ n m b,
    Dict.get? (cloneFrom h g).graph n = some b → Dict.get? (cloneFrom h g).graph m = some b → n = m := by
  induction g with
  | nil => intro h _ n m b e; cases e
  | cons p g ih =>
    intro h wf n m b e1 e2
    obtain ⟨k, a⟩ := p
    have hwf : k ∉ Dict.keys g ∧ Dict.WF g := by simpa [Dict.WF] using wf
    have low : ∀ (g : Dict α Addr) (h : Heap α) n b, Dict.get? (cloneFrom h g).graph n = some b → h.length ≤ b := by
      intro g
      induction g with
      | nil => intro h n b e; cases e
      | cons p g ih =>
        intro h n b e
        obtain ⟨k, a⟩ := p
        rw [cloneFrom] at e
        simp only [Dict.get?_cons] at e
        by_cases hk : k = n
        · rw [if_pos hk] at e; cases e; exact Nat.le_refl _
        · rw [if_neg hk] at e
          have := ih _ n b e
          simp at this; omega
    rw [cloneFrom] at e1 e2
    simp only [Dict.get?_cons] at e1 e2
    by_cases h1 : k = n <;> by_cases h2 : k = m
    · exact h1.symm.trans h2
    · rw [if_pos h1] at e1; rw [if_neg h2] at e2
      cases e1
      have := low _ _ _ _ e2
      simp at this; omega
    · rw [if_neg h1] at e1; rw [if_pos h2] at e2
      cases e2
      have := low _ _ _ _ e1
      simp at this; omega
    · rw [if_neg h1] at e1; rw [if_neg h2] at e2
      exact ih _ hwf.2 n m b e1 e2

/-- What `clone_graph` does. -/
structure IsClone (s t : HG α) : Prop where
  ok : t.Ok
  keys : Dict.keys t.graph = Dict.keys s.graph
  same : ∀ n, t.senders n = s.senders n
  fresh : ∀ n a, Dict.get? t.graph n = some a → s.heap.length ≤ a
  inj : ∀ n m a, Dict.get? t.graph n = some a → Dict.get? t.graph m = some a → n = m
  grows : ∃ l, t.heap = s.heap ++ l

theorem clone_spec {s : HG α} (h : s.Ok) : IsClone s s.clone := by
  have hg := get?_cloneFrom s.graph s.heap h.bound h.wf
  have hk : Dict.keys s.clone.graph = Dict.keys s.graph := keys_cloneFrom s.graph s.heap
  have key : ∀ n b, Dict.get? s.clone.graph n = some b →
      ∃ a, Dict.get? s.graph n = some a := by
    intro n b e
    have : n ∈ Dict.keys s.graph := by rw [← hk]; exact Dict.get?_isSome.mp (by simp [e])
    have := Dict.get?_isSome.mpr this
    cases e' : Dict.get? s.graph n with
    | none => rw [e'] at this; cases this
    | some a => exact ⟨a, rfl⟩
  refine ⟨⟨?_, ?_⟩, hk, ?_, ?_, ?_, ?_⟩
  · unfold Dict.WF; rw [hk]; exact h.wf
  · intro n b e
    obtain ⟨a, ha⟩ := key n b e
    obtain ⟨b', e1, _, e3, _⟩ := (hg n).2 a ha
    have e' : Dict.get? (cloneFrom s.heap s.graph).graph n = some b := e
    rw [e1] at e'; cases e'; exact e3
  · intro n
    unfold senders
    cases e : Dict.get? s.graph n with
    | none =>
      have : Dict.get? s.clone.graph n = none := (hg n).1 e
      rw [this]
    | some a =>
      obtain ⟨b, e1, _, _, e4⟩ := (hg n).2 a e
      have : Dict.get? s.clone.graph n = some b := e1
      rw [this]; exact e4
  · intro n b e
    obtain ⟨a, ha⟩ := key n b e
    obtain ⟨b', e1, e2, _⟩ := (hg n).2 a ha
    have e' : Dict.get? (cloneFrom s.heap s.graph).graph n = some b := e
    rw [e1] at e'; cases e'; exact e2
  · exact cloneFrom_inj s.graph s.heap h.wf
  · exact cloneFrom_prefix s.graph s.heap

theorem clone_value {s : HG α} (h : s.Ok) : s.clone.value = s.value := by
  have hc := clone_spec h
  have hk := keys_value s.clone
  have e1 : s.clone.value = (Dict.keys s.clone.graph).map fun n => (n, s.clone.senders n) := by
    unfold value
    conv => rhs; unfold Dict.keys
    rw [List.map_map]
    apply List.map_congr_left
    intro p hp
    simp only [Function.comp]
    rw [senders_of (Dict.get?_of_mem hc.ok.wf (by exact hp : (p.1, p.2) ∈ s.clone.graph))]
  have e2 : s.value = (Dict.keys s.graph).map fun n => (n, s.senders n) := by
    unfold value
    conv => rhs; unfold Dict.keys
    rw [List.map_map]
    apply List.map_congr_left
    intro p hp
    simp only [Function.comp]
    rw [senders_of (Dict.get?_of_mem h.wf (by exact hp : (p.1, p.2) ∈ s.graph))]
  rw [e1, e2, hc.keys]
  apply List.map_congr_left
  intro n _
  rw [hc.same]

/-! ## Loading a value -/

theorem get?_zipIdx (l : List α) : ∀ k n a, Dict.get? (l.zipIdx k) n = some a → k ≤ a ∧ l[a - k]? = some n := by
  induction l with
  | nil => intro k n a e; cases e
  | cons x l ih =>
    intro k n a e
    rw [List.zipIdx_cons, Dict.get?_cons] at e
    by_cases h : x = n
    · rw [if_pos h] at e; cases e; simp [h]
    · rw [if_neg h] at e
      obtain ⟨h1, h2⟩ := ih (k + 1) n a e
      refine ⟨by omega, ?_⟩
      have : a - k = (a - (k + 1)) + 1 := by omega
      rw [this]; simpa using h2

theorem keys_load (g : Graph α) : Dict.keys (load g).graph = Dict.keys g := by
  unfold load
  simp only
  conv => lhs; unfold Dict.keys
  exact List.zipIdx_map_fst 0 _

theorem load_ok {g : Graph α} (h : Dict.WF g) : (load g).Ok := by
  refine ⟨?_, fun n a e => ?_⟩
  · unfold Dict.WF; rw [keys_load]; exact h
  · obtain ⟨_, h2⟩ := get?_zipIdx _ 0 n a e
    have := (List.getElem?_eq_some_iff.mp h2).1
    simpa [load, Dict.keys] using this

theorem load_inj {g : Graph α} (n m : α) (a : Addr) (h1 : Dict.get? (load g).graph n = some a)
    (h2 : Dict.get? (load g).graph m = some a) : n = m := by
  obtain ⟨_, e1⟩ := get?_zipIdx _ 0 n a h1
  obtain ⟨_, e2⟩ := get?_zipIdx _ 0 m a h2
  rw [e1] at e2; exact Option.some.inj e2

theorem load_value (g : Graph α) : (load g).value = g := by
  unfold load value
  apply List.ext_getElem?
  intro i
  simp only [List.getElem?_map, List.getElem?_zipIdx, Dict.keys]
  cases h : g[i]? with
  | none => simp
  | some p => simp [Heap.read, h]

end HG
end GS

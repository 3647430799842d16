import Verif.GraphLemmas
/-!
# The base graph of a scheduler; presentation independence
-/

set_option linter.unusedSectionVars false
set_option linter.unusedSimpArgs false

namespace GS
open Spec
variable {α : Type _} [DecidableEq α]

theorem edge_iff_get? {g : Graph α} (hg : Dict.WF g) (s r : α) :
    Edge g s r ↔ ∃ d, Dict.get? g r = some d ∧ s ∈ d := by
  constructor
  · rintro ⟨⟨k, d⟩, hp, rfl, hs⟩; exact ⟨d, Dict.get?_of_mem hg hp, hs⟩
  · rintro ⟨d, hd, hs⟩; exact ⟨_, Dict.mem_of_get? hd, rfl, hs⟩

theorem key_iff (g : Graph α) (n : α) : n ∈ Dict.keys g ↔ ∃ p ∈ g, p.1 = n := by
  unfold Dict.keys; rw [List.mem_map]

theorem baseGraph_wf (g : Graph α) : Dict.WF (baseGraph g) := by
  unfold baseGraph
  apply Dict.WF.update
  unfold Dict.WF Dict.keys
  rw [List.map_map]
  simp only [Function.comp_def, List.map_id']
  exact nodup_eraseDups' _

theorem baseGraph_get? (g : Graph α) (hg : Dict.WF g) (n : α) :
    Dict.get? (baseGraph g) n = match Dict.get? g n with
      | some d => some d
      | none => if n ∈ g.flatMap Prod.snd then some [] else none := by
  unfold baseGraph
  rw [Dict.get?_update _ _ hg]
  cases h : Dict.get? g n with
  | some d => rfl
  | none =>
    simp only [Option.orElse]
    have key : ∀ l : List α, Dict.get? (l.map fun n => (n, ([] : List α))) n =
        if n ∈ l then some [] else none := by
      intro l
      induction l with
      | nil => simp
      | cons a l ih =>
        simp only [List.map_cons, Dict.get?_cons, ih, List.mem_cons]
        by_cases e : a = n
        · simp [e]
        · have : ¬ n = a := fun h => e h.symm
          simp [e, this]
    rw [key]
    exact ite_congr (propext List.mem_eraseDups) (fun _ => rfl) (fun _ => rfl)

theorem baseGraph_keys (g : Graph α) (hg : Dict.WF g) (n : α) :
    n ∈ Dict.keys (baseGraph g) ↔ IsNode g n := by
  rw [← Dict.get?_isSome, baseGraph_get? g hg]
  unfold IsNode
  rw [← key_iff, ← Dict.get?_isSome]
  cases h : Dict.get? g n with
  | some d => simp
  | none =>
    simp only [Option.isSome_none, Bool.false_eq_true, false_or]
    split
    · rename_i hm; simpa using hm
    · rename_i hm; simpa using hm

theorem baseGraph_edge (g : Graph α) (hg : Dict.WF g) (s r : α) :
    Edge (baseGraph g) s r ↔ Edge g s r := by
  rw [edge_iff_get? (baseGraph_wf g), edge_iff_get? hg, baseGraph_get? g hg]
  cases h : Dict.get? g r with
  | some d => simp
  | none =>
    simp only [reduceCtorEq, false_and, exists_false, iff_false]
    rintro ⟨d, hd, hs⟩
    split at hd
    · simp at hd; subst hd; simp at hs
    · simp at hd

theorem baseGraph_node (g : Graph α) (hg : Dict.WF g) (n : α) :
    IsNode (baseGraph g) n ↔ IsNode g n := by
  constructor
  · rintro (h | ⟨p, hp, hn⟩)
    · exact (baseGraph_keys g hg n).1 ((key_iff _ _).2 h)
    · obtain ⟨p', hp', _, h'⟩ := (baseGraph_edge g hg n p.1).1 ⟨p, hp, rfl, hn⟩
      exact .inr ⟨p', hp', h'⟩
  · intro h; exact .inl ((key_iff _ _).1 ((baseGraph_keys g hg n).2 h))

theorem baseGraph_same (g : Graph α) (hg : Dict.WF g) : SameGraph (baseGraph g) g :=
  ⟨baseGraph_node g hg, baseGraph_edge g hg⟩

theorem Spec.SameGraph.symm {g h : Graph α} (e : SameGraph g h) : SameGraph h g :=
  ⟨fun n => (e.nodes n).symm, fun s r => (e.edges s r).symm⟩

theorem Spec.SameGraph.proper {g h : Graph α} (e : SameGraph g h) (s r : α) :
    ProperEdge g s r ↔ ProperEdge h s r := by
  unfold ProperEdge; rw [e.edges]

theorem Spec.SameGraph.chain {g h : Graph α} (e : SameGraph g h) (k : Nat) (n : α) :
    ChainTo g k n ↔ ChainTo h k n := by
  induction k generalizing n with
  | zero => exact e.nodes n
  | succ k ih => simp only [ChainTo, e.proper, ih]

theorem Spec.SameGraph.cycle {g h : Graph α} (e : SameGraph g h) : HasCycle g ↔ HasCycle h := by
  have : ProperEdge g = ProperEdge h := by funext s r; exact propext (e.proper s r)
  unfold HasCycle; rw [this]

theorem chain_max_unique {g : Graph α} {i j : Nat} {n : α}
    (h1 : ChainTo g i n) (h2 : ¬ ChainTo g (i + 1) n)
    (h3 : ChainTo g j n) (h4 : ¬ ChainTo g (j + 1) n) : i = j := by
  rcases Nat.lt_trichotomy i j with h | h | h
  · exact absurd (chain_mono h3 h) h2
  · exact h
  · exact absurd (chain_mono h1 h) h4

/-- A node whose chains are bounded has a longest one. -/
theorem chain_max {g : Graph α} {n : α} : ∀ k, IsNode g n → ¬ ChainTo g k n →
    ∃ i, i < k ∧ ChainTo g i n ∧ ¬ ChainTo g (i + 1) n := by
  intro k
  induction k with
  | zero => intro h1 h2; exact absurd h1 h2
  | succ k ih =>
    intro h1 h2
    by_cases h : ChainTo g k n
    · exact ⟨k, by omega, h, h2⟩
    · obtain ⟨i, hi, h3⟩ := ih h1 h
      exact ⟨i, by omega, h3⟩

/-! ## Indices -/

theorem foldl_set_get? (l : List α) (i : Nat) (d : Dict α Nat) (n : α) :
    Dict.get? (l.foldl (fun d n => Dict.set d n i) d) n =
      if n ∈ l then some i else Dict.get? d n := by
  induction l generalizing d with
  | nil => simp
  | cons a l ih =>
    simp only [List.foldl_cons, ih, List.mem_cons, Dict.get?_set]
    by_cases h1 : n ∈ l
    · simp [h1]
    · by_cases h2 : n = a
      · simp [h2]
      · have : ¬ a = n := fun e => h2 e.symm
        simp [h1, h2, this]

theorem queueIndices_fold (q : List (List α)) : ∀ (k : Nat) (d : Dict α Nat) (n : α),
    (∀ i, At q i n → Dict.get? ((q.zipIdx k).foldl
      (fun d p => p.1.foldl (fun d n => Dict.set d n p.2) d) d) n ≠ none) ∧
    (∀ i, At q i n → (∀ j, At q j n → j = i) → Dict.get? ((q.zipIdx k).foldl
      (fun d p => p.1.foldl (fun d n => Dict.set d n p.2) d) d) n = some (k + i)) ∧
    ((∀ i, ¬ At q i n) → Dict.get? ((q.zipIdx k).foldl
      (fun d p => p.1.foldl (fun d n => Dict.set d n p.2) d) d) n = Dict.get? d n) := by
  have at_cons : ∀ (l : List α) (q : List (List α)) (i : Nat) (n : α),
      At (l :: q) (i + 1) n ↔ At q i n := by
    intro l q i n; unfold At; simp
  have at_zero : ∀ (l : List α) (q : List (List α)) (n : α), At (l :: q) 0 n ↔ n ∈ l := by
    intro l q n; unfold At; simp
  induction q with
  | nil =>
    intro k d n
    refine ⟨?_, ?_, fun _ => rfl⟩ <;> (rintro i ⟨l, hl, _⟩; simp at hl)
  | cons l q ih =>
    intro k d n
    simp only [List.zipIdx_cons, List.foldl_cons]
    obtain ⟨h1, h2, h3⟩ := ih (k + 1) (l.foldl (fun d n => Dict.set d n k) d) n
    have hne : ∀ {q' : List (List α)} {k' : Nat} {d' : Dict α Nat} {n : α},
        Dict.get? d' n ≠ none → Dict.get? ((q'.zipIdx k').foldl
          (fun d p => p.1.foldl (fun d n => Dict.set d n p.2) d) d') n ≠ none := by
      intro q'
      induction q' with
      | nil => intro k' d' n h; exact h
      | cons l' q' ih' =>
        intro k' d' n h
        simp only [List.zipIdx_cons, List.foldl_cons]
        apply ih'
        rw [foldl_set_get?]
        split
        · simp
        · exact h
    refine ⟨?_, ?_, ?_⟩
    · intro i hi
      cases i with
      | zero => apply hne; rw [foldl_set_get?, if_pos ((at_zero _ _ _).1 hi)]; simp
      | succ i => exact h1 i ((at_cons _ _ _ _).1 hi)
    · intro i hi hu
      cases i with
      | zero =>
        rw [h3 (fun j hj => by have := hu (j + 1) ((at_cons _ _ _ _).2 hj); omega),
          foldl_set_get?, if_pos ((at_zero _ _ _).1 hi)]; rfl
      | succ i =>
        rw [h2 i ((at_cons _ _ _ _).1 hi) (fun j hj => by
          have := hu (j + 1) ((at_cons _ _ _ _).2 hj); omega)]
        congr 1; omega
    · intro hno
      rw [h3 (fun i hi => hno (i + 1) ((at_cons _ _ _ _).2 hi)), foldl_set_get?,
        if_neg (fun h => hno 0 ((at_zero _ _ _).2 h))]

end GS

/-!
# Shared vocabulary

Python exceptions as values, Python list indexing, and association-list dictionaries.
-/

set_option linter.unusedSectionVars false

namespace GS

/-- The exception classes the modelled code can raise.  `custom` stands for any
exception raised by user code (a user-supplied condition function). -/
inductive Err where
  | schedulerError      -- scheduler.py:384
  | conditionError      -- condition.py:618
  | timeScaleError      -- time.py:45
  | circularDependency  -- toposort.CircularDependencyError
  | keyError | indexError | valueError | typeError | attributeError
  | runtimeError | unboundLocalError | zeroDivisionError | assertionError
  | custom (n : Nat)
deriving DecidableEq, Repr

deriving instance DecidableEq for Except

/-- A failed lookup raises `IndexError`. -/
def orIndexError {β : Type _} : Option β → Except Err β
  | some b => .ok b
  | none => .error .indexError

/-- Python list indexing `l[i]`: negative indices count from the end, out-of-range
indices raise `IndexError`. -/
def pyIndex {β : Type _} (l : List β) (i : Int) : Except Err β :=
  if 0 ≤ i then orIndexError l[i.toNat]?
  else if -i ≤ (l.length : Int) then orIndexError l[((l.length : Int) + i).toNat]?
  else .error .indexError

/-- A Python `dict`: insertion-ordered association list.  Well-formed dicts have
pairwise distinct keys (`Dict.WF`); all operations below preserve this. -/
abbrev Dict (κ : Type _) (β : Type _) := List (κ × β)

namespace Dict
variable {κ : Type _} {β : Type _} [DecidableEq κ]

/-- Keys in insertion order (`dict.keys()`). -/
def keys (d : Dict κ β) : List κ := d.map Prod.fst

/-- `d.get(k)`; `none` models a missing key. -/
def get? (d : Dict κ β) (k : κ) : Option β :=
  match d with
  | [] => none
  | (k', v) :: rest => if k' = k then some v else get? rest k

/-- `d[k]`, raising `KeyError`. -/
def get (d : Dict κ β) (k : κ) : Except Err β :=
  match get? d k with
  | some v => .ok v
  | none => .error .keyError

/-- `d[k] = v`: in place if present, appended otherwise. -/
def set (d : Dict κ β) (k : κ) (v : β) : Dict κ β :=
  match d with
  | [] => [(k, v)]
  | (k', v') :: rest => if k' = k then (k', v) :: rest else (k', v') :: set rest k v

/-- `del d[k]` (no effect if missing; callers model the `KeyError`). -/
def erase (d : Dict κ β) (k : κ) : Dict κ β :=
  match d with
  | [] => []
  | (k', v') :: rest => if k' = k then rest else (k', v') :: erase rest k

/-- `{**d, **e}`. -/
def update (d e : Dict κ β) : Dict κ β :=
  e.foldl (fun acc kv => set acc kv.1 kv.2) d

/-- Distinct keys: every Python dict satisfies this. -/
def WF (d : Dict κ β) : Prop := (keys d).Nodup

instance (d : Dict κ β) : Decidable (WF d) := inferInstanceAs (Decidable (keys d).Nodup)

@[simp] theorem keys_nil : keys ([] : Dict κ β) = [] := rfl
@[simp] theorem keys_cons (k : κ) (v : β) (d : Dict κ β) :
    keys ((k, v) :: d) = k :: keys d := rfl
@[simp] theorem get?_nil (k : κ) : get? ([] : Dict κ β) k = none := rfl

theorem get?_cons (k' : κ) (v : β) (d : Dict κ β) (k : κ) :
    get? ((k', v) :: d) k = if k' = k then some v else get? d k := rfl

theorem get?_eq_none {d : Dict κ β} {k : κ} : get? d k = none ↔ k ∉ keys d := by
  induction d with
  | nil => simp
  | cons kv d ih =>
    obtain ⟨k', v⟩ := kv
    rw [get?_cons]
    by_cases h : k' = k
    · simp [h]
    · simp only [h, if_false, ih, keys_cons, List.mem_cons]
      constructor
      · intro h1 h2; rcases h2 with h2 | h2
        · exact h h2.symm
        · exact h1 h2
      · intro h1 h2; exact h1 (Or.inr h2)

theorem get?_isSome {d : Dict κ β} {k : κ} : (get? d k).isSome ↔ k ∈ keys d := by
  have := get?_eq_none (d := d) (k := k)
  cases h : get? d k <;> simp_all

theorem mem_of_get? {d : Dict κ β} {k : κ} {v : β} (h : get? d k = some v) : (k, v) ∈ d := by
  induction d with
  | nil => simp at h
  | cons kv d ih =>
    obtain ⟨k', v'⟩ := kv
    rw [get?_cons] at h
    by_cases hk : k' = k
    · simp [hk] at h; simp [hk, h]
    · simp [hk] at h; simp [ih h]

theorem get?_of_mem {d : Dict κ β} (wf : WF d) {k : κ} {v : β} (h : (k, v) ∈ d) :
    get? d k = some v := by
  induction d with
  | nil => simp at h
  | cons kv d ih =>
    obtain ⟨k', v'⟩ := kv
    simp only [WF, keys_cons, List.nodup_cons] at wf
    rw [get?_cons]
    rcases List.mem_cons.mp h with h | h
    · cases h; simp
    · have : k ∈ keys d := List.mem_map.mpr ⟨_, h, rfl⟩
      have hne : k' ≠ k := fun e => wf.1 (e ▸ this)
      simp [hne, ih wf.2 h]

theorem get?_set (d : Dict κ β) (k : κ) (v : β) (k' : κ) :
    get? (set d k v) k' = if k = k' then some v else get? d k' := by
  induction d with
  | nil => simp [set, get?_cons]
  | cons kv d ih =>
    obtain ⟨a, b⟩ := kv
    unfold set
    by_cases h : a = k
    · subst h; simp only [if_true, get?_cons]; by_cases h2 : a = k' <;> simp [h2]
    · simp only [h, if_false, get?_cons, ih]
      by_cases h2 : a = k'
      · have : k ≠ k' := fun e => h (h2.trans e.symm)
        simp [h2, this]
      · simp [h2]

theorem keys_set (d : Dict κ β) (k : κ) (v : β) :
    keys (set d k v) = if k ∈ keys d then keys d else keys d ++ [k] := by
  induction d with
  | nil => simp [set]
  | cons kv d ih =>
    obtain ⟨a, b⟩ := kv
    unfold set
    by_cases h : a = k
    · subst h; simp
    · have h' : ¬ k = a := fun e => h e.symm
      simp only [h, if_false, keys_cons, ih, List.mem_cons, h', false_or]
      split <;> simp

theorem mem_keys_set {d : Dict κ β} {k : κ} {v : β} {x : κ} :
    x ∈ keys (set d k v) ↔ x = k ∨ x ∈ keys d := by
  rw [keys_set]; split
  · constructor
    · exact Or.inr
    · rintro (h | h)
      · subst h; assumption
      · exact h
  · simp; exact or_comm

theorem WF.set {d : Dict κ β} (h : WF d) (k : κ) (v : β) : WF (set d k v) := by
  unfold WF at *
  rw [keys_set]; split
  · exact h
  · rename_i hk
    exact List.nodup_append.mpr ⟨h, by simp, by
      intro a ha b hb; simp at hb; subst hb; exact fun e => hk (e ▸ ha)⟩

theorem get?_erase {d : Dict κ β} (wf : WF d) (k k' : κ) :
    get? (erase d k) k' = if k = k' then none else get? d k' := by
  induction d with
  | nil => simp [erase]
  | cons kv d ih =>
    obtain ⟨a, b⟩ := kv
    simp only [WF, keys_cons, List.nodup_cons] at wf
    unfold erase
    by_cases h : a = k
    · subst h
      simp only [if_true, get?_cons]
      by_cases h2 : a = k'
      · subst h2; simp [get?_eq_none, wf.1]
      · simp [h2]
    · simp only [h, if_false, get?_cons, ih wf.2]
      by_cases h2 : a = k'
      · have : k ≠ k' := fun e => h (h2.trans e.symm)
        simp [h2, this]
      · simp [h2]

theorem mem_keys_erase {d : Dict κ β} (wf : WF d) {k x : κ} :
    x ∈ keys (erase d k) ↔ x ≠ k ∧ x ∈ keys d := by
  rw [← get?_isSome, get?_erase wf]
  by_cases h : k = x
  · simp [h]
  · have h' : x ≠ k := fun e => h e.symm
    simp [h, get?_isSome, h']

theorem WF.erase {d : Dict κ β} (h : WF d) (k : κ) : WF (erase d k) := by
  induction d with
  | nil => simpa [Dict.erase]
  | cons kv d ih =>
    obtain ⟨a, b⟩ := kv
    simp only [WF, keys_cons, List.nodup_cons] at h
    unfold Dict.erase
    by_cases hk : a = k
    · simp [hk]; exact h.2
    · simp only [hk, if_false, WF, keys_cons, List.nodup_cons]
      refine ⟨?_, ih h.2⟩
      intro hm
      exact h.1 ((mem_keys_erase h.2).mp hm).2

theorem get?_append (d e : Dict κ β) (k : κ) :
    get? (d ++ e) k = (get? d k).orElse (fun _ => get? e k) := by
  induction d with
  | nil => simp
  | cons kv d ih =>
    obtain ⟨a, b⟩ := kv
    simp only [List.cons_append, get?_cons, ih]
    split <;> simp

theorem get?_update (d e : Dict κ β) (wf : WF e) (k : κ) :
    get? (update d e) k = (get? e k).orElse (fun _ => get? d k) := by
  induction e generalizing d with
  | nil => simp [update]
  | cons kv e ih =>
    obtain ⟨a, b⟩ := kv
    simp only [WF, keys_cons, List.nodup_cons] at wf
    have := ih (set d a b) wf.2
    simp only [update, List.foldl_cons] at *
    rw [this, get?_set, get?_cons]
    by_cases h : a = k
    · subst h
      have : get? e a = none := get?_eq_none.mpr wf.1
      simp [this]
    · simp [h]

theorem WF.update {d : Dict κ β} (h : WF d) (e : Dict κ β) : WF (update d e) := by
  induction e generalizing d with
  | nil => simpa [Dict.update]
  | cons kv e ih => exact ih (h.set kv.1 kv.2)

end Dict

end GS

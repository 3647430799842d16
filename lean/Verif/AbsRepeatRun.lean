import Verif.AbsRepeat
/-!
# Nodes that repeat at absolute intervals: runs
-/

set_option linter.unusedSectionVars false

namespace GS
open Spec Props
variable {α κ W : Type _} [DecidableEq α] [DecidableEq κ]
variable {a : RunArgs α κ W} {abs : Bool} {s s' s0 s1 : Sys α κ W} {pc pc' : PC α}
  {ev : Option (Event α)} {E : Sys α κ W → Sys α κ W → Prop} {h : History α κ W}

theorem Reach.keepConds (hr : Reach E a s0 abs h s pc) (hC : Keeps E fun s => s.conds)
    (hs1 : s0.start a = (s1, .ok abs)) : s.conds = s1.conds := by
  refine hr.ind (P := fun _ s _ => s.conds = s1.conds) ?_ ?_ ?_
  · intro s hs; rw [hs1] at hs; obtain ⟨rfl, _⟩ := Prod.mk.inj hs; rfl
  · intro h s s' pc pc' ev _ ih hst; rw [hst.frame.conds, ih]
  · intro h s s' pc _ ih _ he; exact (hC _ _ he).trans ih

theorem Reach.keepOwner (hr : Reach E a s0 abs h s pc) (hO : Keeps E fun s => s.store.owner)
    (hs1 : s0.start a = (s1, .ok abs)) : s.store.owner = s1.store.owner := by
  refine hr.ind (P := fun _ s _ => s.store.owner = s1.store.owner) ?_ ?_ ?_
  · intro s hs; rw [hs1] at hs; obtain ⟨rfl, _⟩ := Prod.mk.inj hs; rfl
  · intro h s s' pc pc' ev _ ih hst; rw [hst.frame.store.owner, ih]
  · intro h s s' pc _ ih _ he; exact (hO _ _ he).trans ih

/-- The choice of sets, as far as a node with a condition that depends only on the time
is concerned: `D` says when the condition is satisfied. -/
def ChoiceDue (id : Option κ) (n : α) (D : Rat → Prop) (s : Sys α κ W) : PC α → Prop
  | .choosing c => (n ∈ c.exec → D (s.clock id).time.absolute) ∧
      (n ∉ c.todo → n ∈ c.layer → n ∉ c.exec → ¬ D (s.clock id).time.absolute)
  | _ => True

/-- A node whose condition is satisfied exactly at the times in `D` is in exactly those
sets chosen from its consideration set. -/
theorem Reach.due (hr : Reach E a s0 true h s pc) (hC : Keeps E fun s => s.conds)
    (hs1 : s0.start a = (s1, .ok true)) {n : α} {i : Nat} {D : Rat → Prop} {c : Cond α κ W}
    (hQ : Keeps E fun s => s.queue)
    (hn : Dict.get? s1.conds n = some c) (hi : At s0.queue i n) (hu : ∀ j, At s0.queue j n → j = i)
    (hD : ∀ h s pc, Reach E a s0 true h s pc → (∀ e, pc ≠ .raised e) →
      ∃ b st, eval s.toView a.id c s.store = (.ok b, st) ∧ (b = true ↔ D (s.clock a.id).time.absolute)) :
    (∀ y ∈ timedSets a.id h, n ∈ y.2.1 ↔ y.1 = i ∧ D y.2.2) ∧ ChoiceDue a.id n D s pc := by
  refine hr.ind (P := fun h s pc => (∀ y ∈ timedSets a.id h, n ∈ y.2.1 ↔ y.1 = i ∧ D y.2.2) ∧
    ChoiceDue a.id n D s pc) ?_ ?_ ?_
  · intro s _; exact ⟨by simp [timedSets], trivial⟩
  · intro h s s' pc pc' ev hr ih hst
    obtain ⟨ih1, ih2⟩ := ih
    have hcs := hr.keepConds hC hs1
    have hq := hr.keepQueue hQ
    have quiet : (∀ i set, ev ≠ some (.layer i set true)) → ∀ y ∈ timedSets a.id (ext h s ev s'),
        n ∈ y.2.1 ↔ y.1 = i ∧ D y.2.2 := by
      intro hev
      cases ev with
      | none => rw [ext_none]; exact ih1
      | some x =>
        rw [ext_some, timed_snoc]
        cases x with
        | layer i set b =>
          cases b with
          | true => exact absurd rfl (hev i set)
          | false => simpa [timedSet?] using ih1
        | _ => simpa [timedSet?] using ih1
    cases hst with
    | yield _ _ ha => cases ha
    | emptyYield _ ha => cases ha
    | silent _ _ ha => cases ha
    | @yieldAbs c0 l ts ht hag ha hx hts =>
      refine ⟨?_, trivial⟩
      rw [ext_some, timed_snoc]
      intro y hy
      rcases List.mem_append.mp hy with hy | hy
      · exact ih1 y hy
      · simp [timedSet?] at hy
        subst hy
        dsimp only
        have hci := hr.choice c0 rfl
        have hat : n ∈ c0.layer → c0.idx = i := fun hm =>
          hu c0.idx ⟨c0.layer, by rw [← hq]; exact hci.queue, hm⟩
        constructor
        · intro hm
          exact ⟨hat (hci.sub n hm), ih2.1 hm⟩
        · rintro ⟨hidx, hd⟩
          apply Classical.byContradiction
          intro hne
          refine ih2.2 (by rw [ht]; simp) ?_ hne hd
          obtain ⟨l, hl, hm⟩ := hi
          have := hci.queue
          rw [hq, hidx, hl] at this
          cases this; exact hm
    | consider hql =>
      refine ⟨quiet (by simp), ?_, ?_⟩
      · intro h; cases h
      · intro h1 h2; exact absurd h2 h1
    | again ht hag =>
      refine ⟨quiet (by simp), ih2.1, fun h1 h2 => absurd h2 h1⟩
    | @skip c0 m ns ht hm =>
      refine ⟨quiet (by simp), ih2.1, fun h1 h2 h3 => ih2.2 ?_ h2 h3⟩
      rw [ht]; intro hx
      rcases List.mem_cons.mp hx with rfl | hx
      · exact h3 hm
      · exact h1 hx
    | @reject c0 m ns cond st ht hm hc he =>
      refine ⟨quiet (by simp), ih2.1, fun h1 h2 h3 => ?_⟩
      by_cases hmn : n = m
      · subst hmn
        rw [hcs, hn] at hc
        cases hc
        obtain ⟨b, st', e1, e2⟩ := hD _ _ _ hr (fun e => by simp)
        rw [e1] at he
        obtain ⟨rfl, _⟩ := (by simpa using he : b = false ∧ st' = st)
        intro hd
        exact Bool.noConfusion (e2.mpr hd)
      · exact ih2.2 (by rw [ht]; simp [hmn, h1]) h2 h3
    | @add c0 m ns cond st f u ht hm hc he =>
      refine ⟨quiet (by simp), fun h1 => ?_, fun h1 h2 h3 => ?_⟩
      · rcases List.mem_append.mp h1 with h1 | h1
        · exact ih2.1 h1
        · simp at h1; subst h1
          rw [hcs, hn] at hc
          cases hc
          obtain ⟨b, st', e1, e2⟩ := hD _ _ _ hr (fun e => by simp)
          rw [e1] at he
          obtain ⟨rfl, _⟩ := (by simpa using he : b = true ∧ st' = st)
          exact e2.mp rfl
      · rw [List.mem_append] at h3
        have hmn : n ≠ m := by rintro rfl; exact h3 (.inr (by simp))
        exact ih2.2 (by rw [ht]; simp [hmn, h1]) h2 (fun h => h3 (.inl h))
    | fails hp hfr hev =>
      refine ⟨quiet ?_, trivial⟩
      rcases hev with rfl | ⟨_, rfl, _⟩ <;> simp
    | _ => exact ⟨quiet (by simp), trivial⟩
  · intro h s s' pc _ ih hs _
    refine ⟨ih.1, ?_⟩
    cases pc with
    | choosing c => cases hs
    | _ => trivial

/-! ## Positions -/

/-- The number of sets yielded in the current pass, by program counter. -/
def PassPos (py : List (List (List α))) : PC α → Prop
  | .inner i _ => ∃ ps p, py = ps ++ [p] ∧ p.length = i
  | .choosing c => ∃ ps p, py = ps ++ [p] ∧ p.length = c.idx
  | .yielded i _ => ∃ ps p, py = ps ++ [p] ∧ p.length = i + 1
  | _ => True

theorem Reach.passPos (hr : Reach E a s0 true h s pc) : PassPos (passYields h) pc := by
  refine hr.ind (P := fun h _ pc => PassPos (passYields h) pc) ?_ ?_ ?_
  · intro s _; trivial
  · intro h s s' pc pc' ev _ ih hst
    cases hst with
    | yield _ _ ha => cases ha
    | emptyYield _ ha => cases ha
    | silent _ _ ha => cases ha
    | pass => rw [ext_some, passYields_passStart]; exact ⟨_, [], rfl, rfl⟩
    | consider => rw [ext_some, passYields_other _ _ _ rfl (by simp)]; exact ih
    | again => rw [ext_none]; exact ih
    | skip => rw [ext_none]; exact ih
    | reject => rw [ext_none]; exact ih
    | add => rw [ext_some, passYields_other _ _ _ rfl (by simp)]; exact ih
    | @yieldAbs c =>
      rw [ext_some, passYields_yield _ _ _ (y := c.exec) rfl]
      obtain ⟨ps, p, h1, h2⟩ := ih
      exact ⟨ps, p ++ [c.exec], by rw [h1, addToLast_snoc], by simp [h2]⟩
    | resume => rw [ext_none]; exact ih
    | _ => trivial
  · intro h s s' pc _ ih _ _; exact ih

theorem Spec.FullPasses.prev {L : Nat} {h : History α κ W} {e : Entry α κ W}
    (hf : FullPasses (h ++ [e]) L) : FullPasses h L := by
  intro p hp
  apply hf
  rw [passYields_snoc]
  split
  · rw [List.dropLast_concat]
    exact List.dropLast_subset _ hp
  · split
    · rename_i y _
      generalize passYields h = py at hp
      rcases List.eq_nil_or_concat py with rfl | ⟨ps, q, rfl⟩
      · cases hp
      · rw [List.concat_eq_append] at hp ⊢
        rw [addToLast_snoc, List.dropLast_concat]
        rw [List.dropLast_concat] at hp
        exact hp
    · exact hp

theorem flatten_length_const {β : Type _} {L : Nat} : ∀ (ps : List (List β)),
    (∀ p ∈ ps, p.length = L) → ps.flatten.length = ps.length * L
  | [], _ => by simp
  | p :: ps, h => by
    rw [List.flatten_cons, List.length_append, h p (by simp),
      flatten_length_const ps (fun q hq => h q (by simp [hq])), List.length_cons, Nat.succ_mul]
    omega

/-- If no pass was cut short, the `k`-th set was chosen from position `k` modulo the
number of consideration sets. -/
theorem Reach.positions (hr : Reach E a s0 true h s pc) (hE : Keeps E fun s => s.clock a.id)
    (hQ : Keeps E fun s => s.queue) (hs1 : s0.start a = (s1, .ok true))
    (hf : FullPasses h s0.queue.length) :
    ∀ (k : Nat) y, (timedSets a.id h)[k]? = some y → y.1 = k % s0.queue.length := by
  refine hr.ind (P := fun h _ _ => FullPasses h s0.queue.length →
    ∀ (k : Nat) y, (timedSets a.id h)[k]? = some y → y.1 = k % s0.queue.length) ?_ ?_ ?_ hf
  · intro s _ _ k y hy; simp [timedSets] at hy
  · intro h s s' pc pc' ev hr ih hst hf
    have ih' : ∀ (k : Nat) y, (timedSets a.id h)[k]? = some y → y.1 = k % s0.queue.length := by
      cases ev with
      | none => rw [ext_none] at hf; exact ih hf
      | some x => rw [ext_some] at hf; exact ih hf.prev
    have quiet : (∀ i set, ev ≠ some (.layer i set true)) → ∀ (k : Nat) y,
        (timedSets a.id (ext h s ev s'))[k]? = some y → y.1 = k % s0.queue.length := by
      intro hev
      cases ev with
      | none => rw [ext_none]; exact ih'
      | some x =>
        rw [ext_some, timed_snoc]
        cases x with
        | layer i set b =>
          cases b with
          | true => exact absurd rfl (hev i set)
          | false => simpa [timedSet?] using ih'
        | _ => simpa [timedSet?] using ih'
    cases hst with
    | yield _ _ ha => cases ha
    | emptyYield _ ha => cases ha
    | silent _ _ ha => cases ha
    | @yieldAbs c l ts ht hag ha hx hts =>
      intro k y hy
      rw [ext_some, timed_snoc] at hy
      rcases Nat.lt_trichotomy k (timedSets a.id h).length with hk | hk | hk
      · rw [List.getElem?_append_left hk] at hy; exact ih' k y hy
      · rw [hk, List.getElem?_append_right (Nat.le_refl _)] at hy
        simp [timedSet?] at hy; subst hy
        dsimp only
        obtain ⟨ps, p, h1, h2⟩ := hr.passPos
        rw [ext_some] at hf
        have hfull : ∀ q ∈ ps, q.length = s0.queue.length := by
          intro q hq
          apply hf.prev
          rw [h1, List.dropLast_concat]; exact hq
        have hlen : (timedSets a.id h).length = ps.length * s0.queue.length + c.idx := by
          have e1 := (hr.absTimes hE hs1).2.1
          have e2 := (hr.passYields_flatten).1
          have := congrArg List.length e1
          rw [List.length_map] at this
          rw [this, ← e2, h1, List.flatten_append, List.length_append, flatten_length_const ps hfull]
          simp [h2]
        have hlt : c.idx < s0.queue.length := by
          have := (hr.choice c rfl).queue
          rw [hr.keepQueue hQ] at this
          exact (List.getElem?_eq_some_iff.mp this).1
        rw [hk, hlen, Nat.mul_comm, Nat.mul_add_mod, Nat.mod_eq_of_lt hlt]
      · rw [List.getElem?_eq_none (by simp [timedSet?]; omega)] at hy; cases hy
    | fails hp hfr hev =>
      refine quiet ?_
      rcases hev with rfl | ⟨_, rfl, _⟩ <;> simp
    | _ => exact quiet (by simp)
  · intro h s s' pc _ ih _ _; exact ih

end GS

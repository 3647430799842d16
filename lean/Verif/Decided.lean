import Verif.Order
import Verif.RunCounts
import Verif.Absolute
import Verif.Props.Run
/-!
# Conditions that cannot change while a set is chosen
-/

set_option linter.unusedSectionVars false

namespace GS.Spec
variable {α κ W : Type _} [DecidableEq α] [DecidableEq κ]

/-- The condition, of a node `n` that is considered together with the nodes of `layer`,
cannot change while the set is chosen: it is built (with `All`, `Any`, `Not`) from
conditions on the time, `JustRan`, `WhenFinished...`, `Threshold`, user functions of the
time and the outside world, and conditions on the calls of nodes that are not in
`layer`. -/
def Decided (layer : List α) (n : α) (own : OId → Option α) (c : Cond α κ W) : Prop :=
  FixedCond false (fun d => d ∉ layer) (fun d o => o = some n ∧ d ∉ layer) own c

end GS.Spec

namespace GS
open Spec
variable {α κ W : Type _} [DecidableEq α] [DecidableEq κ]
variable {E : Sys α κ W → Sys α κ W → Prop} {a : RunArgs α κ W} {s0 s : Sys α κ W}
variable {abs : Bool} {h : History α κ W} {pc : PC α}

/-- What is alike in the states of a choice from `layer` before `n` is selected. -/
abbrev Unchosen (id : Option κ) (layer : List α) (n : α) (v v' : View α κ W) : Prop :=
  Alike id (fun d => d ∉ layer) (fun d o => o = some n ∧ d ∉ layer) v v'

mutual
theorem fixed_stateless {P : α → Prop} {Q : α → Option α → Prop} {own : OId → Option α} :
    ∀ c : Cond α κ W, FixedCond false P Q own c → Stateless c
  | .leaf _ _, _ => trivial
  | .whileNot _ _, _ => trivial
  | .all _ args, h => by unfold FixedCond at h; exact fixedAll_stateless args h
  | .any _ args, h => by unfold FixedCond at h; exact fixedAll_stateless args h
  | .not _ c, h => by unfold FixedCond at h; exact fixed_stateless c h
  | .nwhen _ _ _, h => by unfold FixedCond at h; cases h.1
theorem fixedAll_stateless {P : α → Prop} {Q : α → Option α → Prop} {own : OId → Option α} :
    ∀ cs : List (Cond α κ W), FixedAll false P Q own cs → StatelessAll cs
  | [], _ => trivial
  | c :: cs, h => by
    unfold FixedAll at h
    exact ⟨fixed_stateless c h.1, fixedAll_stateless cs h.2⟩
end

theorem Unchosen.refl {id : Option κ} {layer : List α} {n : α} {v : View α κ W} {f u l}
    (hf : Dict.get? v.countsTotal id = some f) (hu : Dict.get? v.countsUseable id = some u)
    (hl : Dict.get? v.execList id = some l) : Unchosen id layer n v v :=
  ⟨rfl, rfl, .refl _, rfl, rfl, ⟨l, l, hl, hl, .refl _⟩,
    ⟨f, f, hf, hf, fun _ _ => Nat.le_refl _, fun _ _ _ => rfl⟩, ⟨u, u, hu, hu, fun _ _ _ => rfl⟩⟩

theorem Unchosen.putStore {id : Option κ} {layer : List α} {n : α} {v : View α κ W}
    {s : Sys α κ W} (h : Unchosen id layer n v s.toView) (st) :
    Unchosen id layer n v (s.putStore st).toView := h

theorem Unchosen.add {id : Option κ} {layer : List α} {n m : α} {v : View α κ W}
    {s : Sys α κ W} (h : Unchosen id layer n v s.toView) (hm : m ∈ layer) (hne : m ≠ n) {f u}
    (hf : Dict.get? s.countsTotal id = some f) (hu : Dict.get? s.countsUseable id = some u) (st) :
    Unchosen id layer n v
      (((s.putStore st).putTotal id (bumpF m f)).putUseable id (bumpU m u)).toView := by
  refine ⟨h.nodes, h.mode, h.queue, h.clock, h.world, h.list, ?_, ?_⟩
  · obtain ⟨f1, f2, h1, h2, h3, h4⟩ := h.total
    rw [hf] at h2; injection h2 with h2; subst h2
    refine ⟨f1, bumpF m f, h1, by simp [Sys.putTotal, Sys.putUseable, Dict.get?_set], ?_, ?_⟩
    · intro t d
      have := h3 t d
      unfold bumpF; split <;> omega
    · intro t d hd
      unfold bumpF
      rw [if_neg (fun e : d = m => hd (e ▸ hm)), h4 t d hd]
  · obtain ⟨u1, u2, h1, h2, h3⟩ := h.useable
    rw [hu] at h2; injection h2 with h2; subst h2
    refine ⟨u1, bumpU m u, h1, by simp [Sys.putTotal, Sys.putUseable, Dict.get?_set], ?_⟩
    rintro d x ⟨hx, hd⟩
    injection hx with hx; subst hx
    unfold bumpU
    rw [if_neg (fun e : d = m => hd (e ▸ hm)), if_neg (fun e : x = m => hne e.symm), h3 d x ⟨rfl, hd⟩]

/-- The choice in progress began with `c0`. -/
structure Begun (a : RunArgs α κ W) (c0 : Entry α κ W) (es : History α κ W) (s : Sys α κ W)
    (c : Choice α) : Prop where
  ev : c0.ev = .consider c.idx c.layer
  adds : ∀ x ∈ es, ∃ m, x.ev = .add m
  conds : s.conds = c0.after.conds
  owner : s.store.owner = c0.after.store.owner
  yes : ∀ n ∈ c.exec, ∀ cond, Dict.get? c0.after.conds n = some cond →
    Decided c.layer n c0.after.store.owner cond → Evaluates c0.after a.id cond true
  no : ∀ n ∈ c.layer, n ∉ c.exec → Unchosen a.id c.layer n c0.after.toView s.toView

theorem Unchosen.eval {id : Option κ} {layer : List α} {n : α} {v v' : View α κ W}
    (h : Unchosen id layer n v v') {st st' : Store α κ} {cond : Cond α κ W}
    (ho : st'.owner = st.owner) (hd : Decided layer n st.owner cond) :
    (eval v' id cond st').1 = (GS.eval v id cond st).1 := by
  rw [eval_fixed h cond st' hd ho]
  exact (eval_stateless v id cond st (fixed_stateless cond hd)).2 _ ho

theorem Reach.begun (hr : Reach E a s0 abs h s pc)
    (hT : Keeps E (fun s => Dict.get? s.countsTotal a.id))
    (hU : Keeps E (fun s => Dict.get? s.countsUseable a.id))
    (hL : Keeps E (fun s => Dict.get? s.execList a.id)) :
    ∀ c, pc = .choosing c → ∃ pre c0 es, h = pre ++ c0 :: es ∧ Begun a c0 es s c := by
  refine hr.ind (P := fun h s pc => ∀ c, pc = .choosing c →
    ∃ pre c0 es, h = pre ++ c0 :: es ∧ Begun a c0 es s c) ?_ ?_ ?_
  · intro s _ c hc; cases hc
  · intro h s s' pc pc' ev hr ih hst c' hc'
    have ci := hr.choice
    cases hst with
    | @consider idx changed st layer hq hg =>
      cases hc'
      obtain ⟨s1, hs1⟩ := hr.started
      obtain ⟨f0, hf0, _⟩ := (Sys.start_ok hs1).total
      obtain ⟨l0, hl0, _⟩ := (Sys.start_ok hs1).list
      obtain ⟨f, hf, _⟩ := hr.counts hT hs1 hf0
      obtain ⟨u, hu, _⟩ := hr.useable hU
      have hl := hr.execs hL (by simp) hs1 hl0
      refine ⟨h, ⟨s, .consider idx layer, s.putStore st⟩, [], by rw [ext_some], rfl, by simp,
        rfl, rfl, by simp, fun n _ _ => ?_⟩
      exact Unchosen.refl (v := (s.putStore st).toView) hf hu hl
    | @again c ht hag =>
      cases hc'
      obtain ⟨pre, c0, es, e, b⟩ := ih c rfl
      exact ⟨pre, c0, es, by rw [ext_none]; exact e, b.ev, b.adds, b.conds, b.owner, b.yes, b.no⟩
    | @skip c n ns ht hn =>
      cases hc'
      obtain ⟨pre, c0, es, e, b⟩ := ih c rfl
      exact ⟨pre, c0, es, by rw [ext_none]; exact e, b.ev, b.adds, b.conds, b.owner, b.yes, b.no⟩
    | @reject c n ns cond st ht hn hc he =>
      cases hc'
      obtain ⟨pre, c0, es, e, b⟩ := ih c rfl
      exact ⟨pre, c0, es, by rw [ext_none]; exact e, b.ev, b.adds, b.conds,
        (eval_store' he).owner.trans b.owner, b.yes, b.no⟩
    | @add c n ns cond st f u ht hn hc he hf hu hm =>
      cases hc'
      obtain ⟨pre, c0, es, e, b⟩ := ih c rfl
      have hnl : n ∈ c.layer := by
        obtain ⟨d, hd⟩ := (ci c rfl).todo
        rw [hd, ht]; simp
      refine ⟨pre, c0, es ++ [⟨s, .add n,
        ((s.putStore st).putTotal a.id (bumpF n f)).putUseable a.id (bumpU n u)⟩], by rw [ext_some, e]; simp, b.ev, ?_, b.conds,
        (eval_store' he).owner.trans b.owner, ?_, ?_⟩
      · intro x hx
        rcases List.mem_append.1 hx with hx | hx
        · exact b.adds x hx
        · rw [List.mem_singleton.1 hx]; exact ⟨n, rfl⟩
      · intro m hm cond' hc' hd
        rcases List.mem_append.1 hm with hm | hm
        · exact b.yes m hm cond' hc' hd
        · cases List.mem_singleton.1 hm
          rw [b.conds, hc'] at hc; injection hc with hc; subst hc
          unfold Evaluates
          rw [← (b.no n hnl hn).eval b.owner hd, he]
      · intro m hml hm
        have hm : m ∉ c.exec ∧ m ≠ n := by simpa using hm
        exact (b.no m hml hm.1).add hnl (fun e => hm.2 e.symm) hf hu st
    | _ => cases hc'
  · intro h s s' pc _ ih hp _ c hc
    subst hc; simp [PC.suspended] at hp

end GS

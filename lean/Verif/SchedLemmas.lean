import Verif.Scheduler
import Verif.TimeLemmas2
/-!
# Step relation of the run machine

`StepR` lists the possible outcomes of `Sys.step` with explicit states.
-/

set_option linter.unusedSectionVars false

namespace GS
variable {α κ W : Type _} [DecidableEq α] [DecidableEq κ]

theorem Dict.set_set {κ' β : Type _} [DecidableEq κ'] (d : Dict κ' β) (k : κ') (v w : β) :
    Dict.set (Dict.set d k v) k w = Dict.set d k w := by
  induction d with
  | nil => simp [Dict.set]
  | cons kv d ih =>
    obtain ⟨a, b⟩ := kv
    by_cases h : a = k
    · subst h; simp [Dict.set]
    · simp [Dict.set, h, ih]

/-- What evaluating conditions under `id` may do to the attributes of condition objects:
only satisfaction counts under `id` change, and they only grow. -/
structure StoreStep (id : Option κ) (st st' : Store α κ) : Prop where
  owner : st'.owner = st.owner
  fresh : st'.fresh = st.fresh
  other : ∀ o i, i ≠ id → st'.sat o i = st.sat o i
  grow : ∀ o i, st.sat o i ≤ st'.sat o i

theorem StoreStep.refl (id : Option κ) (st : Store α κ) : StoreStep id st st :=
  ⟨rfl, rfl, fun _ _ _ => rfl, fun _ _ => Nat.le_refl _⟩

theorem StoreStep.trans {id : Option κ} {s1 s2 s3 : Store α κ} (h1 : StoreStep id s1 s2)
    (h2 : StoreStep id s2 s3) : StoreStep id s1 s3 :=
  ⟨h2.owner.trans h1.owner, h2.fresh.trans h1.fresh,
    fun o i hi => (h2.other o i hi).trans (h1.other o i hi),
    fun o i => Nat.le_trans (h1.grow o i) (h2.grow o i)⟩

theorem StoreStep.bump (id : Option κ) (o : OId) (st : Store α κ) :
    StoreStep id st (st.bumpSat o id) := by
  refine ⟨rfl, rfl, ?_, ?_⟩
  · intro o' i hi; simp [Store.bumpSat, hi]
  · intro o' i; simp only [Store.bumpSat]; split <;> omega

theorem StoreStep.nwhen {id : Option κ} {o : OId} {st : Store α κ} :
    ∀ {r : EvalResult α κ}, StoreStep id st r.2 → StoreStep id st (nwhenResult o id r).2
  | (.ok true, _), h => h.trans (.bump id o _)
  | (.ok false, _), h => h
  | (.error _, _), h => h

mutual
theorem eval_store (v : View α κ W) (id : Option κ) : ∀ (c : Cond α κ W) (st : Store α κ),
    StoreStep id st (eval v id c st).2
  | .leaf o k, st => .refl _ _
  | .whileNot o f, st => .refl _ _
  | .all o args, st => evalAll_store v id args st
  | .any o args, st => evalAny_store v id args st
  | .not o c, st => eval_store v id c st
  | .nwhen o c n, st => by
    unfold eval
    split
    · exact .nwhen (eval_store v id c st)
    · exact .refl _ _
theorem evalAll_store (v : View α κ W) (id : Option κ) : ∀ (cs : List (Cond α κ W)) (st : Store α κ),
    StoreStep id st (evalAll v id cs st).2
  | [], st => .refl _ _
  | c :: cs, st => by
    have h := eval_store v id c st
    unfold evalAll
    rcases hc : eval v id c st with ⟨e | b, st'⟩
    · rw [hc] at h; exact h
    · rw [hc] at h; cases b
      · exact h
      · exact h.trans (evalAll_store v id cs st')
theorem evalAny_store (v : View α κ W) (id : Option κ) : ∀ (cs : List (Cond α κ W)) (st : Store α κ),
    StoreStep id st (evalAny v id cs st).2
  | [], st => .refl _ _
  | c :: cs, st => by
    have h := eval_store v id c st
    unfold evalAny
    rcases hc : eval v id c st with ⟨e | b, st'⟩
    · rw [hc] at h; exact h
    · rw [hc] at h; cases b
      · exact h.trans (evalAny_store v id cs st')
      · exact h
end

theorem eval_store' {v : View α κ W} {id : Option κ} {c : Cond α κ W} {st st' : Store α κ} {r}
    (h : eval v id c st = (r, st')) : StoreStep id st st' := by
  have := eval_store v id c st
  rw [h] at this; exact this

namespace Sys

def putStore (s : Sys α κ W) (st : Store α κ) : Sys α κ W := { s with store := st }
def putTotal (s : Sys α κ W) (id : Option κ) (f : TimeScale → α → Nat) : Sys α κ W :=
  { s with countsTotal := Dict.set s.countsTotal id f }
def putUseable (s : Sys α κ W) (id : Option κ) (u : α → α → Nat) : Sys α κ W :=
  { s with countsUseable := Dict.set s.countsUseable id u }
def putList (s : Sys α κ W) (id : Option κ) (l : List (List α)) : Sys α κ W :=
  { s with execList := Dict.set s.execList id l }
def putStamps (s : Sys α κ W) (id : Option κ) (l : List Time) : Sys α κ W :=
  { s with timestamps := Dict.set s.timestamps id l }

end Sys

/-- The counters after `_reset_counts_total(ts)`. -/
def resetF (ts : TimeScale) (f : TimeScale → α → Nat) : TimeScale → α → Nat :=
  fun t n => if t.val ≤ ts.val then 0 else f t n

/-- The counters after one more selection of `n`. -/
def bumpF (n : α) (f : TimeScale → α → Nat) : TimeScale → α → Nat :=
  fun t m => if m = n then f t m + 1 else f t m

/-- The useable counters after one more selection of `n`. -/
def bumpU (n : α) (u : α → α → Nat) : α → α → Nat :=
  fun a b => if a = n then (if b = n then 0 else u a b) + 1 else (if b = n then 0 else u a b)

/-- Both termination conditions evaluate to false. -/
def Going (s : Sys α κ W) (a : RunArgs α κ W) (st : Store α κ) : Prop :=
  ∃ st1, eval s.toView a.id a.esu s.store = (.ok false, st1) ∧
    eval s.toView a.id a.seq st1 = (.ok false, st)

/-- One of the termination conditions evaluates to true. -/
def Done (s : Sys α κ W) (a : RunArgs α κ W) (st : Store α κ) : Prop :=
  eval s.toView a.id a.esu s.store = (.ok true, st) ∨
  ∃ st1, eval s.toView a.id a.esu s.store = (.ok false, st1) ∧
    eval s.toView a.id a.seq st1 = (.ok true, st)

/-- The inner loop is left at `idx`. -/
def Leaves (s : Sys α κ W) (a : RunArgs α κ W) (idx : Nat) (st : Store α κ) : Prop :=
  (s.queue[idx]? = none ∧ st = s.store) ∨ ((∃ l, s.queue[idx]? = some l) ∧ Done s a st)

/-- What a step that raises may have changed: attributes of condition objects, the clock
of the run's id, or the execution list (when the timestamp cannot be stored). -/
inductive FailFrame (a : RunArgs α κ W) (abs : Bool) (s : Sys α κ W) : Sys α κ W → Prop
  | store (st) (hst : StoreStep a.id s.store st) : FailFrame a abs s (s.putStore st)
  | clock (st c) (hst : StoreStep a.id s.store st) (ts : TimeScale) (hts : ts ≠ .life)
      (hc : (s.clock a.id).incr ts = .ok c) :
      FailFrame a abs s ((s.putStore st).setClock a.id c)
  | list (l x) (ha : abs = true) (hx : Dict.get? s.execList a.id = some l)
      (ht : Dict.get? s.timestamps a.id = none) : FailFrame a abs s (s.putList a.id (l ++ [x]))

/-- Outcomes of a step. -/
inductive StepR (a : RunArgs α κ W) (abs : Bool) :
    Sys α κ W → PC α → Sys α κ W → PC α → Option (Event α) → Prop
  | pass {s : Sys α κ W} {st f} (hg : Going s a st) (hf : Dict.get? s.countsTotal a.id = some f) :
      StepR a abs s .outer ((s.putStore st).putTotal a.id (resetF .pass f)) (.inner 0 false)
        (some .passStart)
  | stopSkip {s : Sys α κ W} {st st2} (hd : Done s a st) (hst : StoreStep a.id s.store st2)
      (hs : a.skip = true) :
      StepR a abs s .outer (s.putStore st2) .returned (some .stop)
  | stopIncr {s : Sys α κ W} {st st2 c} (hd : Done s a st) (hst : StoreStep a.id s.store st2)
      (hs : a.skip = false)
      (hc : (s.clock a.id).incr .environment_state_update = .ok c) :
      StepR a abs s .outer ((s.putStore st2).setClock a.id c) .returned (some .stop)
  | passEnd {s : Sys α κ W} {idx changed st c} (hl : Leaves s a idx st)
      (hch : (changed || abs) = true) (hc : (s.clock a.id).incr .pass = .ok c) :
      StepR a abs s (.inner idx changed) ((s.putStore st).setClock a.id c) .outer none
  | emptyYield {s : Sys α κ W} {idx st l} (hl : Leaves s a idx st) (ha : abs = false)
      (hx : Dict.get? s.execList a.id = some l) :
      StepR a abs s (.inner idx false) ((s.putStore st).putList a.id (l ++ [[]])) .yieldedEmpty
        (some .emptyPass)
  | consider {s : Sys α κ W} {idx changed st layer} (hq : s.queue[idx]? = some layer)
      (hg : Going s a st) :
      StepR a abs s (.inner idx changed) (s.putStore st)
        (.choosing { idx := idx, changed := changed, layer := layer, exec := [], todo := layer,
                     again := false }) (some (.consider idx layer))
  | again {s : Sys α κ W} {c : Choice α} (ht : c.todo = []) (hag : c.again = true) :
      StepR a abs s (.choosing c) s (.choosing { c with todo := c.layer, again := false }) none
  | skip {s : Sys α κ W} {c : Choice α} {n ns} (ht : c.todo = n :: ns) (hn : n ∈ c.exec) :
      StepR a abs s (.choosing c) s (.choosing { c with todo := ns }) none
  | reject {s : Sys α κ W} {c : Choice α} {n ns cond st} (ht : c.todo = n :: ns)
      (hn : n ∉ c.exec) (hc : Dict.get? s.conds n = some cond)
      (he : eval s.toView a.id cond s.store = (.ok false, st)) :
      StepR a abs s (.choosing c) (s.putStore st) (.choosing { c with todo := ns }) none
  | add {s : Sys α κ W} {c : Choice α} {n ns cond st f u} (ht : c.todo = n :: ns)
      (hn : n ∉ c.exec) (hc : Dict.get? s.conds n = some cond)
      (he : eval s.toView a.id cond s.store = (.ok true, st))
      (hf : Dict.get? s.countsTotal a.id = some f) (hu : Dict.get? s.countsUseable a.id = some u)
      (hm : n ∈ s.nodes) :
      StepR a abs s (.choosing c)
        (((s.putStore st).putTotal a.id (bumpF n f)).putUseable a.id (bumpU n u))
        (.choosing { c with todo := ns, exec := c.exec ++ [n], again := true }) (some (.add n))
  | yield {s : Sys α κ W} {c : Choice α} {l} (ht : c.todo = []) (hag : c.again = false)
      (ha : abs = false) (hne : c.exec ≠ []) (hx : Dict.get? s.execList a.id = some l) :
      StepR a abs s (.choosing c) (s.putList a.id (l ++ [c.exec])) (.yielded c.idx true)
        (some (.layer c.idx c.exec true))
  | yieldAbs {s : Sys α κ W} {c : Choice α} {l ts} (ht : c.todo = []) (hag : c.again = false)
      (ha : abs = true) (hx : Dict.get? s.execList a.id = some l)
      (hts : Dict.get? s.timestamps a.id = some ts) :
      StepR a abs s (.choosing c)
        ((s.putList a.id (l ++ [c.exec])).putStamps a.id (ts ++ [(s.clock a.id).time]))
        (.yielded c.idx (c.changed || !c.exec.isEmpty)) (some (.layer c.idx c.exec true))
  | silent {s : Sys α κ W} {c : Choice α} (ht : c.todo = []) (hag : c.again = false)
      (ha : abs = false) (hne : c.exec = []) :
      StepR a abs s (.choosing c) s (.inner (c.idx + 1) c.changed)
        (some (.layer c.idx [] false))
  | resume {s : Sys α κ W} {idx changed c}
      (hc : (s.clock a.id).incr .consideration_set_execution = .ok c) :
      StepR a abs s (.yielded idx changed) (s.setClock a.id c) (.inner (idx + 1) changed) none
  | resumeEmpty {s : Sys α κ W} {c1 c2}
      (hc1 : (s.clock a.id).incr .consideration_set_execution = .ok c1)
      (hc2 : c1.incr .pass = .ok c2) :
      StepR a abs s .yieldedEmpty (s.setClock a.id c2) .outer none
  | returned {s : Sys α κ W} : StepR a abs s .returned s .returned none
  | raised {s : Sys α κ W} {e} : StepR a abs s (.raised e) s (.raised e) none
  | fails {s s' : Sys α κ W} {pc e ev} (hp : pc.final = false)
      (hfr : FailFrame a abs s s')
      (hev : ev = none ∨ (pc = .outer ∧ ev = some .stop ∧ ∃ st, Done s a st)) :
      StepR a abs s pc s' (.raised e) ev

namespace Sys

theorem clock_setClock (s : Sys α κ W) (id : Option κ) (c : Clock) :
    (s.setClock id c).clock id = c := by
  simp [setClock, View.clock, Dict.get?_set]

theorem continues_ok {s s' : Sys α κ W} {a : RunArgs α κ W} {b : Bool}
    (h : s.continues a = (s', .ok b)) :
    ∃ st, s' = s.putStore st ∧ (b = true → Going s a st) ∧ (b = false → Done s a st) := by
  unfold continues evalCond at h
  rcases h1 : eval s.toView a.id a.esu s.store with ⟨r1, st1⟩
  rw [h1] at h
  rcases r1 with e | b1
  · simp at h
  · cases b1
    · dsimp only at h
      rcases h2 : eval s.toView a.id a.seq st1 with ⟨r2, st2⟩
      rw [h2] at h
      rcases r2 with e | b2
      · simp at h
      · simp only [Prod.mk.injEq, Except.ok.injEq] at h
        obtain ⟨hs, hb⟩ := h
        refine ⟨st2, hs.symm, ?_, ?_⟩
        · intro hbt; subst hbt; cases b2
          · exact ⟨st1, h1, h2⟩
          · simp at hb
        · intro hbf; subst hbf; cases b2
          · simp at hb
          · exact .inr ⟨st1, h1, h2⟩
    · simp only [Prod.mk.injEq, Except.ok.injEq] at h
      obtain ⟨hs, hb⟩ := h
      refine ⟨st1, hs.symm, ?_, ?_⟩
      · intro hbt; subst hbt; simp at hb
      · intro _; exact .inl h1

theorem continues_store {s s' : Sys α κ W} {a : RunArgs α κ W} {r}
    (h : s.continues a = (s', r)) : ∃ st, s' = s.putStore st ∧ StoreStep a.id s.store st := by
  unfold continues evalCond at h
  rcases h1 : eval s.toView a.id a.esu s.store with ⟨r1, st1⟩
  rw [h1] at h
  rcases r1 with e | b1
  · simp only [Prod.mk.injEq] at h; exact ⟨st1, h.1.symm, eval_store' h1⟩
  · cases b1
    · dsimp only at h
      rcases h2 : eval s.toView a.id a.seq st1 with ⟨r2, st2⟩
      rw [h2] at h
      rcases r2 with e | b2 <;>
      · simp only [Prod.mk.injEq] at h; exact ⟨st2, h.1.symm, (eval_store' h1).trans (eval_store' h2)⟩
    · simp only [Prod.mk.injEq] at h; exact ⟨st1, h.1.symm, eval_store' h1⟩

theorem incrClock_ok {s s' : Sys α κ W} {id : Option κ} {ts : TimeScale}
    (h : s.incrClock id ts = .ok s') :
    ∃ c, (s.clock id).incr ts = .ok c ∧ s' = s.setClock id c := by
  unfold incrClock at h
  split at h
  · rename_i c hc; injection h with h; exact ⟨c, hc, h.symm⟩
  · simp at h

theorem endPass_stepR {s0 s s' : Sys α κ W} {a : RunArgs α κ W} {abs changed : Bool} {idx : Nat}
    {pc' ev st} (hs : s = s0.putStore st) (hss : StoreStep a.id s0.store st)
    (hl : Leaves s0 a idx st)
    (h : s.endPass a abs changed = (s', pc', ev)) :
    StepR a abs s0 (.inner idx changed) s' pc' ev := by
  unfold endPass at h
  by_cases hc : (!changed && !abs) = true
  · rw [if_pos hc] at h
    simp only [Bool.and_eq_true, Bool.not_eq_true'] at hc
    obtain ⟨hc1, hc2⟩ := hc
    subst hc1
    unfold record at h
    cases hx : Dict.get? s.execList a.id with
    | none =>
      simp only [hx, Prod.mk.injEq] at h
      obtain ⟨h1, h2, h3⟩ := h
      subst h1 h2 h3 hs
      exact .fails rfl (.store _ hss) (.inl rfl)
    | some l =>
      simp only [hx, Prod.mk.injEq, Bool.false_eq_true, if_false] at h
      obtain ⟨h1, h2, h3⟩ := h
      subst h2 h3 h1 hs
      exact .emptyYield hl hc2 hx
  · rw [if_neg hc] at h
    have hch : (changed || abs) = true := by
      cases changed <;> cases abs <;> simp_all
    cases hi : s.incrClock a.id .pass with
    | error e =>
      simp only [hi, Prod.mk.injEq] at h
      obtain ⟨h1, h2, h3⟩ := h
      subst h1 h2 h3 hs
      exact .fails rfl (.store _ hss) (.inl rfl)
    | ok s1 =>
      simp only [hi, Prod.mk.injEq] at h
      obtain ⟨h1, h2, h3⟩ := h
      subst h1 h2 h3
      obtain ⟨c, h4, h5⟩ := incrClock_ok hi
      subst h5 hs
      exact .passEnd hl hch h4

theorem step_stepR {s s' : Sys α κ W} {a : RunArgs α κ W} {abs : Bool} {pc pc' ev}
    (h : s.step a abs pc = (s', pc', ev)) : StepR a abs s pc s' pc' ev := by
  cases pc with
  | outer =>
    unfold step at h
    rcases hc : s.continues a with ⟨s1, e | b⟩
    · simp only [hc, Prod.mk.injEq] at h
      obtain ⟨h1, h2, h3⟩ := h
      obtain ⟨st, hst, hss⟩ := continues_store hc
      subst h1 h2 h3 hst; exact .fails rfl (.store _ hss) (.inl rfl)
    · obtain ⟨st, hs, hg, hd⟩ := continues_ok hc
      obtain ⟨st', hs', hss⟩ := continues_store hc
      have est : st' = st := congrArg Sys.store (hs'.symm.trans hs)
      subst est
      clear hs'
      cases b
      · simp only [hc] at h
        have hd := hd rfl
        unfold finish at h
        by_cases hsk : a.skip = true
        · rw [if_pos hsk] at h
          dsimp only [evalCond] at h
          rcases he : eval s1.toView a.id a.seq s1.store with ⟨e | b, st2⟩
          · simp only [he, Prod.mk.injEq] at h
            obtain ⟨h1, h2, h3⟩ := h
            subst h1 h2 h3 hs; exact .fails rfl (.store st2 (hss.trans (eval_store' he))) (.inr ⟨rfl, rfl, _, hd⟩)
          · simp only [he, Prod.mk.injEq] at h
            obtain ⟨h1, h2, h3⟩ := h
            subst h1 h2 h3 hs; exact .stopSkip hd (hss.trans (eval_store' he)) hsk
        · have hsk' : a.skip = false := by simpa using hsk
          rw [if_neg hsk] at h
          cases hi : s1.incrClock a.id .environment_state_update with
          | error e =>
            simp only [hi, Prod.mk.injEq] at h
            obtain ⟨h1, h2, h3⟩ := h
            subst h1 h2 h3 hs; exact .fails rfl (.store _ hss) (.inr ⟨rfl, rfl, _, hd⟩)
          | ok s2 =>
            obtain ⟨c, h4, h5⟩ := incrClock_ok hi
            simp only [hi, evalCond] at h
            rcases he : eval s2.toView a.id a.seq s2.store with ⟨e | b, st2⟩
            · simp only [he, Prod.mk.injEq] at h
              obtain ⟨h1, h2, h3⟩ := h
              subst h1 h2 h3 h5 hs; exact .fails rfl (.clock st2 c (hss.trans (eval_store' he)) _ (by simp) h4) (.inr ⟨rfl, rfl, _, hd⟩)
            · simp only [he, Prod.mk.injEq] at h
              obtain ⟨h1, h2, h3⟩ := h
              subst h1 h2 h3 h5 hs
              exact StepR.stopIncr (st2 := st2) hd (hss.trans (eval_store' he)) hsk' h4
      · simp only [hc] at h
        have hg := hg rfl
        unfold resetTotal at h
        subst hs
        have e1 : (s.putStore st').countsTotal = s.countsTotal := rfl
        rw [e1] at h
        cases hf : Dict.get? s.countsTotal a.id with
        | none =>
          simp only [hf, Prod.mk.injEq] at h
          obtain ⟨h1, h2, h3⟩ := h
          subst h1 h2 h3; exact .fails rfl (.store _ hss) (.inl rfl)
        | some f =>
          simp only [hf, Prod.mk.injEq] at h
          obtain ⟨h1, h2, h3⟩ := h
          subst h1 h2 h3
          exact .pass hg hf
  | inner idx changed =>
    unfold step at h
    cases hq : s.queue[idx]? with
    | none =>
      simp only [hq] at h
      exact endPass_stepR (st := s.store) rfl (.refl _ _) (.inl ⟨hq, rfl⟩) h
    | some layer =>
      simp only [hq] at h
      rcases hc : s.continues a with ⟨s1, e | b⟩
      · simp only [hc, Prod.mk.injEq] at h
        obtain ⟨h1, h2, h3⟩ := h
        obtain ⟨st, hst, hss⟩ := continues_store hc
        subst h1 h2 h3 hst; exact .fails rfl (.store _ hss) (.inl rfl)
      · obtain ⟨st, hs, hg, hd⟩ := continues_ok hc
        obtain ⟨st', hs', hss⟩ := continues_store hc
        have est : st' = st := congrArg Sys.store (hs'.symm.trans hs)
        subst est
        clear hs'
        cases b
        · simp only [hc] at h
          exact endPass_stepR hs hss (.inr ⟨⟨layer, hq⟩, hd rfl⟩) h
        · simp only [hc, Prod.mk.injEq] at h
          obtain ⟨h1, h2, h3⟩ := h
          subst h1 h2 h3 hs
          exact .consider hq (hg rfl)
  | choosing c =>
    unfold step choose at h
    cases ht : c.todo with
    | nil =>
      simp only [ht] at h
      by_cases hag : c.again = true
      · rw [if_pos hag] at h
        simp only [Prod.mk.injEq] at h
        obtain ⟨h1, h2, h3⟩ := h
        subst h1 h2 h3
        exact .again ht hag
      · rw [if_neg hag] at h
        have hag' : c.again = false := by simpa using hag
        unfold endChoice at h
        dsimp only at h
        by_cases hb : (!c.exec.isEmpty || abs) = true
        · rw [if_pos hb] at h
          unfold record at h
          cases hx : Dict.get? s.execList a.id with
          | none =>
            simp only [hx, Prod.mk.injEq] at h
            obtain ⟨h1, h2, h3⟩ := h
            subst h1 h2 h3; exact .fails rfl (.store s.store (.refl _ _)) (.inl rfl)
          | some l =>
            simp only [hx] at h
            cases abs with
            | false =>
              have hne : c.exec ≠ [] := by
                intro e; rw [e] at hb; simp at hb
              have hne' : c.exec.isEmpty = false := by
                simpa using hne
              simp only [Bool.false_eq_true, if_false, Prod.mk.injEq, hne', Bool.not_false,
                Bool.or_true] at h
              obtain ⟨h1, h2, h3⟩ := h
              subst h1 h2 h3
              exact .yield ht hag' rfl hne hx
            | true =>
              simp only [if_true] at h
              cases hts : Dict.get? s.timestamps a.id with
              | none =>
                simp only [hts, Prod.mk.injEq] at h
                obtain ⟨h1, h2, h3⟩ := h
                subst h1 h2 h3; exact .fails rfl (.list l c.exec rfl hx hts) (.inl rfl)
              | some ts =>
                simp only [hts, Prod.mk.injEq] at h
                obtain ⟨h1, h2, h3⟩ := h
                subst h1 h2 h3
                exact .yieldAbs ht hag' rfl hx hts
        · rw [if_neg hb] at h
          simp only [Prod.mk.injEq] at h
          obtain ⟨h1, h2, h3⟩ := h
          have he : c.exec = [] := by
            cases hh : c.exec with
            | nil => rfl
            | cons x xs => rw [hh] at hb; simp at hb
          have habs : abs = false := by
            cases abs <;> simp_all
          rw [he] at h2 h3
          simp only [List.isEmpty_nil, Bool.not_true, Bool.or_false] at h2
          subst h1 h2 h3
          exact .silent ht hag' habs he
    | cons n ns =>
      simp only [ht] at h
      by_cases hn : n ∈ c.exec
      · rw [if_pos hn] at h
        simp only [Prod.mk.injEq] at h
        obtain ⟨h1, h2, h3⟩ := h
        subst h1 h2 h3
        exact .skip ht hn
      · rw [if_neg hn] at h
        unfold considerNode at h
        cases hc : Dict.get? s.conds n with
        | none =>
          simp only [hc, Prod.mk.injEq] at h
          obtain ⟨h1, h2, h3⟩ := h
          subst h1 h2 h3; exact .fails rfl (.store s.store (.refl _ _)) (.inl rfl)
        | some cond =>
          simp only [hc, evalCond] at h
          rcases he : eval s.toView a.id cond s.store with ⟨e | b, st⟩
          · simp only [he, Prod.mk.injEq] at h
            obtain ⟨h1, h2, h3⟩ := h
            subst h1 h2 h3; exact .fails rfl (.store st (eval_store' he)) (.inl rfl)
          · cases b
            · simp only [he, Prod.mk.injEq] at h
              obtain ⟨h1, h2, h3⟩ := h
              subst h1 h2 h3
              exact .reject ht hn hc he
            · simp only [he, fire] at h
              cases hf : Dict.get? s.countsTotal a.id with
              | none =>
                simp only [hf, Prod.mk.injEq] at h
                obtain ⟨h1, h2, h3⟩ := h
                subst h1 h2 h3; exact .fails rfl (.store st (eval_store' he)) (.inl rfl)
              | some f =>
                simp only [hf] at h
                by_cases hm : n ∈ s.nodes
                · rw [if_pos hm] at h
                  cases hu : Dict.get? s.countsUseable a.id with
                  | none =>
                    simp only [hu, Prod.mk.injEq] at h
                    obtain ⟨h1, h2, h3⟩ := h
                    subst h1 h2 h3; exact .fails rfl (.store st (eval_store' he)) (.inl rfl)
                  | some u =>
                    simp only [hu, Prod.mk.injEq] at h
                    obtain ⟨h1, h2, h3⟩ := h
                    subst h1 h2 h3
                    exact StepR.add ht hn hc he hf hu hm
                · rw [if_neg hm] at h
                  simp only [Prod.mk.injEq] at h
                  obtain ⟨h1, h2, h3⟩ := h
                  subst h1 h2 h3; exact .fails rfl (.store st (eval_store' he)) (.inl rfl)
  | yielded idx changed =>
    unfold step at h
    cases hi : s.incrClock a.id .consideration_set_execution with
    | error e =>
      simp only [hi, Prod.mk.injEq] at h
      obtain ⟨h1, h2, h3⟩ := h
      subst h1 h2 h3; exact .fails rfl (.store s.store (.refl _ _)) (.inl rfl)
    | ok s1 =>
      simp only [hi, Prod.mk.injEq] at h
      obtain ⟨h1, h2, h3⟩ := h
      subst h1 h2 h3
      obtain ⟨c, h4, h5⟩ := incrClock_ok hi
      subst h5; exact .resume h4
  | yieldedEmpty =>
    unfold step at h
    cases hi : s.incrClock a.id .consideration_set_execution with
    | error e =>
      simp only [hi, Prod.mk.injEq] at h
      obtain ⟨h1, h2, h3⟩ := h
      subst h1 h2 h3; exact .fails rfl (.store s.store (.refl _ _)) (.inl rfl)
    | ok s1 =>
      simp only [hi] at h
      obtain ⟨c1, h4, h5⟩ := incrClock_ok hi
      cases hi2 : s1.incrClock a.id .pass with
      | error e =>
        simp only [hi2, Prod.mk.injEq] at h
        obtain ⟨h1, h2, h3⟩ := h
        subst h1 h2 h3 h5; exact .fails rfl (.clock s.store c1 (.refl _ _) _ (by simp) h4) (.inl rfl)
      | ok s2 =>
        simp only [hi2, Prod.mk.injEq] at h
        obtain ⟨h1, h2, h3⟩ := h
        subst h1 h2 h3
        obtain ⟨c2, h6, h7⟩ := incrClock_ok hi2
        subst h5
        rw [clock_setClock] at h6
        have : (s.setClock a.id c1).setClock a.id c2 = s.setClock a.id c2 := by
          simp [setClock, Dict.set_set]
        rw [this] at h7
        subst h7
        exact .resumeEmpty h4 h6
  | returned =>
    unfold step at h
    simp only [Prod.mk.injEq] at h
    obtain ⟨h1, h2, h3⟩ := h
    subst h1 h2 h3; exact .returned
  | raised e =>
    unfold step at h
    simp only [Prod.mk.injEq] at h
    obtain ⟨h1, h2, h3⟩ := h
    subst h1 h2 h3; exact .raised

end Sys
end GS

import Verif.PartRun
import Verif.OrderSim
import Verif.Props.Cut
/-!
# Lemmas: the positions of a run that goes on
-/

set_option linter.unusedSectionVars false

namespace GS
open Spec TimeScale
variable {α κ W : Type _} [DecidableEq α] [DecidableEq κ]
variable {X : α → Bool} {id : Option κ} {s s' s0 s1 s2 t : Sys α κ W}
variable {a : RunArgs α κ W} {e e1 e2 : List α} {ns layer : List α} {x : α}
variable {w : List (List α) → World α κ W} {h : History α κ W} {pc pc' : PC α} {k m i n : Nat}
variable {ys : List (List α)} {py py1 : List (List (List α))} {o : Option Nat}

/-! ## Choosing nodes -/

theorem Sweep.snoc (hs : Sweep id s ns e s1 e1) (hc : Considers id s1 e1 x s2 e2) :
    Sweep id s (ns ++ [x]) e s2 e2 := by
  induction hs with
  | nil => exact .cons hc .nil
  | cons h _ ih => exact .cons h (ih hc)

/-- Rounds that have each added something. -/
inductive Rounds (id : Option κ) (layer : List α) (s0 : Sys α κ W) (e0 : List α) :
    Sys α κ W → List α → Prop
  | refl : Rounds id layer s0 e0 s0 e0
  | snoc {s s1 : Sys α κ W} {e e1 : List α} : Rounds id layer s0 e0 s e → Sweep id s layer e s1 e1 →
      e1 ≠ e → Rounds id layer s0 e0 s1 e1

theorem Rounds.loop {e0 : List α} (h : Rounds id layer s0 e0 s e) {s' : Sys α κ W} {e' : List α}
    (hl : Loop id layer s e s' e') : Loop id layer s0 e0 s' e' := by
  induction h with
  | refl => exact hl
  | snoc _ h2 h3 ih => exact ih (.more h2 h3 hl)

/-- The nodes of the set are being chosen. -/
def Trying (id : Option κ) (s0 s : Sys α κ W) (c : Choice α) : Prop :=
  ∃ sr er done, Rounds id c.layer s0 [] sr er ∧ c.layer = done ++ c.todo ∧
    Sweep id sr done er s c.exec ∧ (c.again = false → c.exec = er) ∧ (c.again = true → c.exec ≠ er)

theorem Trying.again {c : Choice α} (h : Trying id s0 s c) (ht : c.todo = []) (hag : c.again = true) :
    Trying id s0 s { c with todo := c.layer, again := false } := by
  obtain ⟨sr, er, done, h1, h2, h3, _, h5⟩ := h
  rw [ht, List.append_nil] at h2
  subst h2
  exact ⟨s, c.exec, [], .snoc h1 h3 (h5 hag), rfl, .nil, fun _ => rfl, nofun⟩

theorem Trying.loop {c : Choice α} (h : Trying id s0 s c) (ht : c.todo = []) (hag : c.again = false) :
    Loop id c.layer s0 [] s c.exec := by
  obtain ⟨sr, er, done, h1, h2, h3, h4, _⟩ := h
  rw [ht, List.append_nil] at h2
  subst h2
  have h4 := h4 hag
  subst h4
  exact h1.loop (.last h3)

theorem Trying.same {c : Choice α} (h : Trying id s0 s c) (ht : c.todo = x :: ns)
    (hc : Considers id s c.exec x s1 c.exec) : Trying id s0 s1 { c with todo := ns } := by
  obtain ⟨sr, er, done, h1, h2, h3, h4, h5⟩ := h
  exact ⟨sr, er, done ++ [x], h1, by simp [h2, ht], h3.snoc hc, h4, h5⟩

theorem Trying.more {c : Choice α} (h : Trying id s0 s c) (ht : c.todo = x :: ns)
    (hc : Considers id s c.exec x s1 (c.exec ++ [x])) :
    Trying id s0 s1 { c with todo := ns, exec := c.exec ++ [x], again := true } := by
  obtain ⟨sr, er, done, h1, h2, h3, _, _⟩ := h
  refine ⟨sr, er, done ++ [x], h1, by simp [h2, ht], h3.snoc hc, nofun, fun _ hx => ?_⟩
  have hx : c.exec ++ [x] = er := hx
  have : (c.exec ++ [x]).length = er.length := by rw [hx]
  simp at this
  rcases h3.grow with g | ⟨g, _⟩
  · omega
  · rw [g] at this; omega

/-! ## Passes -/

theorem addToLast_length {β : Type _} (l : List (List β)) (y : β) :
    (addToLast l y).length = l.length := by
  induction l with
  | nil => rfl
  | cons p l ih => cases l <;> simp_all [addToLast]

theorem addToLast_take {β : Type _} (l : List (List β)) (y : β) (h : m < l.length) :
    (addToLast l y).take m = l.take m := by
  rcases List.eq_nil_or_concat l with rfl | ⟨l, p, rfl⟩
  · simp at h
  · rw [List.concat_eq_append] at *
    rw [addToLast_snoc, List.take_append_of_le_length (by simp at h; omega),
      List.take_append_of_le_length (by simp at h; omega)]

/-- The number of passes begun. -/
def begun (k : Nat) : Option Nat → Nat
  | none => k
  | some _ => k + 1

theorem Pos.length (h : Pos w a s0 k o ys py s) : py.length = begun k o := by
  induction h with
  | start => rfl
  | pass _ _ _ ih => simp [ih, begun]
  | silent _ _ _ _ ih => exact ih
  | shown _ _ _ _ _ ih => rw [addToLast_length]; exact ih
  | over _ _ ih => exact ih
  | passEnd _ _ _ ih => exact ih
  | passEmpty _ _ _ _ ih => rw [addToLast_length]; exact ih

/-- The run was between two passes before. -/
theorem Pos.earlier (h : Pos w a s0 k o ys py s) (hm : m ≤ k) :
    ∃ ys1 s1, Pos w a s0 m none ys1 (py.take m) s1 := by
  induction h with
  | start hs =>
    obtain rfl : m = 0 := by omega
    exact ⟨_, _, .start hs⟩
  | pass h1 _ _ ih =>
    obtain ⟨ys1, s1, g⟩ := ih hm
    have := h1.length
    simp only [begun] at this
    exact ⟨ys1, s1, by rw [List.take_append_of_le_length (by omega)]; exact g⟩
  | silent _ _ _ _ ih => exact ih hm
  | shown h1 _ _ _ _ ih =>
    have := h1.length
    simp only [begun] at this
    rw [addToLast_take _ _ (by omega)]; exact ih hm
  | over _ _ ih => exact ih hm
  | @passEnd k i ys py c s h1 h2 h3 ih =>
    by_cases hk : m ≤ k
    · exact ih hk
    · obtain rfl : m = k + 1 := by omega
      have := h1.length
      simp only [begun] at this
      exact ⟨_, _, by rw [List.take_of_length_le (by omega)]; exact .passEnd h1 h2 h3⟩
  | @passEmpty k i ys py l c1 c2 s h1 h2 h3 h4 ih =>
    have := h1.length
    simp only [begun] at this
    by_cases hk : m ≤ k
    · rw [addToLast_take _ _ (by omega)]; exact ih hk
    · obtain rfl : m = k + 1 := by omega
      exact ⟨_, _, by
        rw [List.take_of_length_le (by rw [addToLast_length]; omega)]
        exact .passEmpty (l := l) h1 h2 h3 h4⟩

/-! ## Steps -/

/-- Where the run is. -/
def Placed (w : List (List α) → World α κ W) (a : RunArgs α κ W) (s0 : Sys α κ W)
    (h : History α κ W) (s : Sys α κ W) : PC α → Prop
  | .outer => ∃ k, Pos w a s0 k none (yields h) (passYields h) s
  | .inner i _ => ∃ k, Pos w a s0 k (some i) (yields h) (passYields h) s
  | .choosing c => ∃ k s1 st, Pos w a s0 k (some c.idx) (yields h) (passYields h) s1 ∧
      s1.queue[c.idx]? = some c.layer ∧ Evaluated (Terms a) s1.store st ∧
      Trying a.id (s1.putStore st) s c
  | .yielded i _ => ∃ k s1 st layer s2 e l ys py, Pos w a s0 k (some i) ys py s1 ∧
      s1.queue[i]? = some layer ∧ Evaluated (Terms a) s1.store st ∧
      Loop a.id layer (s1.putStore st) [] s2 e ∧ s = s2.putList a.id l ∧
      yields h = ys ++ [e] ∧ passYields h = addToLast py e
  | .yieldedEmpty => ∃ k i s1 l ys py, Pos w a s0 k (some i) ys py s1 ∧ s1.queue[i]? = none ∧
      s = s1.putList a.id l ∧ yields h = ys ++ [[]] ∧ passYields h = addToLast py []
  | .returned => False
  | .raised _ => ∀ m, m ≤ (passYields h).length - 1 →
      ∃ ys1 s1, Pos w a s0 m none ys1 ((passYields h).take m) s1

/-- All passes that have come to an end ended between two passes. -/
theorem Placed.earlier (h1 : Placed w a s0 h s pc) (hm : m ≤ (completed h pc).length) :
    ∃ ys1 s1, Pos w a s0 m none ys1 ((passYields h).take m) s1 := by
  cases pc with
  | outer =>
    obtain ⟨k, g⟩ := h1
    have := g.length
    simp only [begun, completed] at this hm
    exact g.earlier (by omega)
  | inner i b =>
    obtain ⟨k, g⟩ := h1
    have := g.length
    simp only [begun, completed, List.length_dropLast] at this hm
    exact g.earlier (by omega)
  | choosing c =>
    obtain ⟨k, s1, st, g, _⟩ := h1
    have := g.length
    simp only [begun, completed, List.length_dropLast] at this hm
    exact g.earlier (by omega)
  | yielded i b =>
    obtain ⟨k, s1, st, layer, s2, e, l, ys, py, g, _, _, _, _, _, g6⟩ := h1
    have := g.length
    simp only [begun, completed, List.length_dropLast, g6, addToLast_length] at this hm
    rw [g6, addToLast_take _ _ (by omega)]
    exact g.earlier (by omega)
  | yieldedEmpty =>
    obtain ⟨k, i, s1, l, ys, py, g, _, _, _, g6⟩ := h1
    have := g.length
    simp only [begun, completed, List.length_dropLast, g6, addToLast_length] at this hm
    rw [g6, addToLast_take _ _ (by omega)]
    exact g.earlier (by omega)
  | returned => exact h1.elim
  | raised _ => exact h1 m (by simpa [completed] using hm)

theorem completed_le (h : History α κ W) (pc : PC α) :
    (passYields h).length - 1 ≤ (completed h pc).length := by
  cases pc <;> simp [completed]

theorem Placed.step {ev : Option (Event α)} (h1 : Placed w a s0 h s pc)
    (hg : GoesOn a (resumed w (yields h) s pc) pc)
    (hst : (resumed w (yields h) s pc).step a false pc = (s', pc', ev)) :
    Placed w a s0 (h ++ ev.toList.map fun x => ⟨resumed w (yields h) s pc, x, s'⟩) s' pc' := by
  have none_ : ∀ r : Sys α κ W, h ++ (none : Option (Event α)).toList.map
      (fun x => (⟨r, x, s'⟩ : Entry α κ W)) = h := fun r => by simp
  have other : ∀ (r : Sys α κ W) (x : Event α), x.yield? = none → x ≠ .passStart →
      yields (h ++ (some x).toList.map fun x => ⟨r, x, s'⟩) = yields h ∧
      passYields (h ++ (some x).toList.map fun x => ⟨r, x, s'⟩) = passYields h := by
    intro r x hx hp
    refine ⟨by rw [yields_snoc_ev]; simp [hx], ?_⟩
    exact passYields_other h r s' hx hp
  have yes : ∀ (r : Sys α κ W) (x : Event α) (y : List α), x.yield? = some y →
      yields (h ++ (some x).toList.map fun x => ⟨r, x, s'⟩) = yields h ++ [y] ∧
      passYields (h ++ (some x).toList.map fun x => ⟨r, x, s'⟩) = addToLast (passYields h) y := by
    intro r x y hx
    refine ⟨by rw [yields_snoc_ev]; simp [hx], ?_⟩
    exact passYields_yield h r s' hx
  have hr : pc.suspended = false → resumed w (yields h) s pc = s := fun hp => by
    unfold resumed; rw [hp]; rfl
  have hR := Sys.step_stepR hst
  generalize hrs : resumed w (yields h) s pc = r at *
  cases hR with
  | @pass st f hgo hf =>
    have hrs2 := hr rfl; subst hrs2
    obtain ⟨k, g⟩ := h1
    refine ⟨k, ?_⟩
    rw [yields_snoc_ev]
    simp only [Option.toList, List.map_cons, List.map_nil, passYields_passStart]
    simpa [Event.yield?] using Pos.pass (st := st) g (step_terms hst nofun) hf
  | stopSkip hd => exact absurd hd (Props.unsatisfied_done hg)
  | stopIncr hd => exact absurd hd (Props.unsatisfied_done hg)
  | @passEnd idx changed st c hl hch hc =>
    have hrs2 := hr rfl; subst hrs2
    obtain ⟨k, g⟩ := h1
    rw [none_]
    rcases hl with ⟨hq, rfl⟩ | ⟨⟨l, hq⟩, hd⟩
    · exact ⟨k + 1, .passEnd g hq hc⟩
    · exact absurd hd (Props.unsatisfied_done (hg (List.getElem?_eq_some_iff.1 hq).1))
  | @emptyYield idx st l hl ha hx =>
    have hrs2 := hr rfl; subst hrs2
    obtain ⟨k, g⟩ := h1
    rcases hl with ⟨hq, rfl⟩ | ⟨⟨l, hq⟩, hd⟩
    · obtain ⟨e1, e2⟩ := yes r .emptyPass [] rfl
      exact ⟨k, idx, r, _, _, _, g, hq, rfl, e1, e2⟩
    · exact absurd hd (Props.unsatisfied_done (hg (List.getElem?_eq_some_iff.1 hq).1))
  | @consider idx changed st layer hq hgo =>
    have hrs2 := hr rfl; subst hrs2
    obtain ⟨k, g⟩ := h1
    obtain ⟨e1, e2⟩ := other r (.consider idx layer) rfl nofun
    refine ⟨k, r, st, ?_, hq, step_terms hst nofun, _, [], [], .refl, rfl, .nil, fun _ => rfl, nofun⟩
    rw [e1, e2]; exact g
  | @again c ht hag =>
    have hrs2 := hr rfl; subst hrs2
    obtain ⟨k, s1, st, g1, g2, g3, g4⟩ := h1
    rw [none_]
    exact ⟨k, s1, st, g1, g2, g3, g4.again ht hag⟩
  | @skip c n ns ht hn =>
    have hrs2 := hr rfl; subst hrs2
    obtain ⟨k, s1, st, g1, g2, g3, g4⟩ := h1
    rw [none_]
    exact ⟨k, s1, st, g1, g2, g3, g4.same ht (.skip hn)⟩
  | @reject c n ns cond st' ht hn hc he =>
    have hrs2 := hr rfl; subst hrs2
    obtain ⟨k, s1, st, g1, g2, g3, g4⟩ := h1
    rw [none_]
    exact ⟨k, s1, st, g1, g2, g3, g4.same ht (.reject hn hc he)⟩
  | @add c n ns cond st' f u ht hn hc he hf hu hm =>
    have hrs2 := hr rfl; subst hrs2
    obtain ⟨k, s1, st, g1, g2, g3, g4⟩ := h1
    obtain ⟨e1, e2⟩ := other r (.add n) rfl nofun
    refine ⟨k, s1, st, ?_, g2, g3, g4.more ht (.add hn hc he hf hu)⟩
    rw [e1, e2]; exact g1
  | @yield c l ht hag ha hne hx =>
    have hrs2 := hr rfl; subst hrs2
    obtain ⟨k, s1, st, g1, g2, g3, g4⟩ := h1
    obtain ⟨e1, e2⟩ := yes r (.layer c.idx c.exec true) c.exec rfl
    exact ⟨k, s1, st, c.layer, r, c.exec, _, _, _, g1, g2, g3, g4.loop ht hag, rfl, e1, e2⟩
  | yieldAbs _ _ ha => cases ha
  | @silent c ht hag ha hne =>
    have hrs2 := hr rfl; subst hrs2
    obtain ⟨k, s1, st, g1, g2, g3, g4⟩ := h1
    obtain ⟨e1, e2⟩ := other _ (.layer c.idx [] false) rfl nofun
    have g5 := g4.loop ht hag
    rw [hne] at g5
    refine ⟨k, ?_⟩
    rw [e1, e2]; exact .silent g1 g2 g3 g5
  | @resume idx changed c hc =>
    obtain ⟨k, s1, st, layer, s2, e, l, ys, py, g1, g2, g3, g4, rfl, g6, g7⟩ := h1
    subst hrs
    rw [none_]
    refine ⟨k, ?_⟩
    rw [g6, g7]
    rw [g6] at hc
    simp only [resumed, PC.suspended, if_true] at hc ⊢
    exact .shown g1 g2 g3 g4 hc
  | @resumeEmpty c1 c2 hc1 hc2 =>
    obtain ⟨k, i, s1, l, ys, py, g1, g2, rfl, g6, g7⟩ := h1
    subst hrs
    rw [none_]
    refine ⟨k + 1, ?_⟩
    rw [g6, g7]
    rw [g6] at hc1
    simp only [resumed, PC.suspended, if_true] at hc1 ⊢
    exact .passEmpty g1 g2 hc1 hc2
  | returned => exact h1.elim
  | raised => rw [none_]; exact h1
  | fails hp hfr hev =>
    rcases hev with rfl | ⟨rfl, rfl, st, hd⟩
    · rw [none_]
      exact fun m hm => h1.earlier (Nat.le_trans hm (completed_le h pc))
    · exact absurd hd (Props.unsatisfied_done hg)

theorem Spec.Unended.placed (hr : Unended w a s0 false n h s pc) : GS.Placed w a s0 h s pc := by
  induction hr with
  | start hs => exact ⟨0, .start hs⟩
  | step _ hg hst ih => exact ih.step hg hst

theorem completed_take (hm : m ≤ (completed h pc).length) :
    (passYields h).take m = (completed h pc).take m := by
  cases pc <;> first
    | rfl
    | (simp only [completed, List.length_dropLast] at hm ⊢
       rw [List.dropLast_eq_take, List.take_take, Nat.min_eq_left hm])

end GS

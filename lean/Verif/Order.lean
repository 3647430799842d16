import Verif.RunInv
import Verif.Spec.Order
/-!
# Evaluation and choice of sets under different iteration orders
-/

set_option linter.unusedSectionVars false

namespace GS
open Spec
variable {α κ W : Type _} [DecidableEq α] [DecidableEq κ]

/-! ## Sets -/

theorem Spec.SameSets.refl : ∀ (q : List (List α)), SameSets q q
  | [] => .nil
  | _ :: xs => .cons (fun _ => Iff.rfl) (Spec.SameSets.refl xs)

theorem Spec.SameSets.symm {q q' : List (List α)} (h : SameSets q q') : SameSets q' q := by
  induction h with
  | nil => exact .nil
  | cons hx _ ih => exact .cons (fun n => (hx n).symm) ih

theorem Spec.SameSets.length {q q' : List (List α)} (h : SameSets q q') : q'.length = q.length := by
  induction h with
  | nil => rfl
  | cons _ _ ih => simp [ih]

theorem Spec.SameSets.get {q q' : List (List α)} (h : SameSets q q') :
    ∀ {i : Nat} {x : List α}, q[i]? = some x → ∃ y, q'[i]? = some y ∧ SameMembers x y := by
  induction h with
  | nil => intro i x hx; simp at hx
  | @cons a b xs ys hx _ ih =>
    intro i x hi
    cases i with
    | zero => simp at hi; subst hi; exact ⟨b, rfl, hx⟩
    | succ i => simp at hi; simpa using ih hi

theorem Spec.SameSets.append {q q' : List (List α)} (h : SameSets q q') {x y : List (List α)}
    (hx : SameSets x y) : SameSets (q ++ x) (q' ++ y) := by
  induction h with
  | nil => exact hx
  | cons h1 _ ih => exact .cons h1 ih

theorem Spec.SameSets.mem {q q' : List (List α)} (h : SameSets q q') :
    ∀ l ∈ q, ∃ l' ∈ q', SameMembers l l' := by
  induction h with
  | nil => simp
  | @cons a b xs ys hx _ ih =>
    intro l hl
    rcases List.mem_cons.1 hl with hl | hl
    · subst hl; exact ⟨b, by simp, hx⟩
    · obtain ⟨l', h1, h2⟩ := ih l hl; exact ⟨l', by simp [h1], h2⟩

theorem Spec.SameSets.apart {q q' : List (List α)} (h : SameSets q q') {d m : α} (ha : NotTogether q d m) :
    NotTogether q' d m := by
  intro l hl ⟨h1, h2⟩
  obtain ⟨l', hl', he⟩ := h.symm.mem l hl
  exact ha l' hl' ⟨(he d).1 h1, (he m).1 h2⟩

theorem Spec.SameSets.getLast {q q' : List (List α)} (h : SameSets q q') :
    (∀ x, q[q.length - 1]? = some x → ∃ y, q'[q'.length - 1]? = some y ∧ SameMembers x y) := by
  intro x hx
  rw [h.length]
  exact h.get hx

/-! ## Evaluation -/

/-- Two views of which the second differs from the first by further selections. -/
structure Alike (id : Option κ) (P : α → Prop) (Q : α → Option α → Prop) (v v' : View α κ W) :
    Prop where
  nodes : v'.nodes = v.nodes
  mode : v'.mode = v.mode
  queue : SameSets v.queue v'.queue
  clock : v'.clock id = v.clock id
  world : v'.world = v.world
  list : ∃ l l', Dict.get? v.execList id = some l ∧ Dict.get? v'.execList id = some l' ∧
    SameSets l l'
  total : ∃ f f', Dict.get? v.countsTotal id = some f ∧ Dict.get? v'.countsTotal id = some f' ∧
    (∀ t d, f t d ≤ f' t d) ∧ ∀ t d, P d → f' t d = f t d
  useable : ∃ u u', Dict.get? v.countsUseable id = some u ∧ Dict.get? v'.countsUseable id = some u' ∧
    ∀ d m, Q d (some m) → u' d m = u d m

section
variable {id : Option κ} {P : α → Prop} {Q : α → Option α → Prop} {v v' : View α κ W}

theorem Alike.totalEq (h : Alike id P Q v v') {d : α} (hd : P d) (ts : TimeScale) :
    v'.total id ts d = v.total id ts d := by
  obtain ⟨f, f', h1, h2, _, h4⟩ := h.total
  unfold View.total
  rw [h1, h2, h.nodes]
  simp only [h4 ts d hd]

theorem Alike.totalLe (h : Alike id P Q v v') {d : α} {ts : TimeScale} {k : Nat}
    (hk : v.total id ts d = .ok k) : ∃ k', v'.total id ts d = .ok k' ∧ k ≤ k' := by
  obtain ⟨f, f', h1, h2, h3, _⟩ := h.total
  unfold View.total at hk ⊢
  rw [h1] at hk
  rw [h2, h.nodes]
  dsimp only at hk ⊢
  split at hk
  · rename_i hm
    rw [if_pos hm]
    injection hk with hk
    exact ⟨_, rfl, by have := h3 ts d; omega⟩
  · cases hk

theorem Alike.useableEq (h : Alike id P Q v v') {d : α} {o : Option α} (hd : Q d o) :
    v'.useable id d o = v.useable id d o := by
  obtain ⟨u, u', h1, h2, h3⟩ := h.useable
  unfold View.useable
  rw [h1, h2, h.nodes]
  cases o with
  | none => rfl
  | some m => simp only [h3 d m hd]

theorem layerOffset_same {q q' : List (List α)} (h : SameSets q q') (o : Option α) (i : Rat) :
    layerOffset o i q' = layerOffset o i q := by
  unfold layerOffset
  suffices H : ∀ (k : Nat) (acc : Option Rat),
      (q'.zipIdx k).foldl (fun off p => match o with
        | some o => if o ∈ p.1 then some (p.2 * i) else off
        | none => off) acc =
      (q.zipIdx k).foldl (fun off p => match o with
        | some o => if o ∈ p.1 then some (p.2 * i) else off
        | none => off) acc from H 0 none
  induction h with
  | nil => intro k acc; rfl
  | @cons x y xs ys hx _ ih =>
    intro k acc
    simp only [List.zipIdx_cons, List.foldl_cons]
    rw [ih]
    congr 1
    cases o with
    | none => rfl
    | some o =>
      by_cases ho : o ∈ x
      · simp [ho, (hx o).1 ho]
      · have : o ∉ y := fun hy => ho ((hx o).2 hy)
        simp [ho, this]

theorem Alike.justRan (h : Alike id P Q v v') (d : α) : justRanFunc v' id d = justRanFunc v id d := by
  obtain ⟨l, l', h1, h2, h3⟩ := h.list
  have hl : l'.length = l.length := h3.length
  have e1 : Dict.get v.execList id = .ok l := by unfold Dict.get; rw [h1]
  have e2 : Dict.get v'.execList id = .ok l' := by unfold Dict.get; rw [h2]
  unfold justRanFunc pyIndex
  rw [e1, e2]
  simp only [hl]
  by_cases hc : (-(-1) : Int) ≤ (l.length : Int)
  · simp only [hc, if_true]
    have hn : ((l.length : Int) + -1).toNat = l.length - 1 := by omega
    simp only [hn]
    simp only [show ¬ (0 : Int) ≤ -1 by decide, if_false]
    cases hx : l[l.length - 1]? with
    | none =>
      have : l'[l.length - 1]? = none := by
        rw [List.getElem?_eq_none_iff] at hx ⊢; omega
      rw [this]
    | some x =>
      obtain ⟨y, hy, hxy⟩ := h3.get hx
      rw [hy]
      simp only [orIndexError]
      congr 1
      exact decide_eq_decide.2 (hxy d).symm
  · simp only [hc, if_false, show ¬ (0 : Int) ≤ -1 by decide]

theorem evalLeaf_fixed (h : Alike id P Q v v') {o : Option α} {k : Leaf α κ W}
    (hk : FixedLeaf P Q o k) : evalLeaf v' id o k = evalLeaf v id o k := by
  have hc := h.clock
  have hsum : ∀ ts ds, (∀ d ∈ ds, P d) → sumCalls v' id ts ds = sumCalls v id ts ds := by
    intro ts ds hd
    induction ds with
    | nil => rfl
    | cons d ds ih =>
      unfold sumCalls
      rw [h.totalEq (hd d (by simp)), ih fun x hx => hd x (by simp [hx])]
  have hall : ∀ ts ds, (∀ d ∈ ds, P d) → allHaveRunFunc v' id ts ds = allHaveRunFunc v id ts ds := by
    intro ts ds hd
    induction ds with
    | nil => rfl
    | cons d ds ih =>
      unfold allHaveRunFunc
      rw [h.totalEq (hd d (by simp)), ih fun x hx => hd x (by simp [hx])]
  have hfin : ∀ d, isFinished v' id d = isFinished v id d := by
    intro d; unfold isFinished; rw [h.world]
  have hany : ∀ ds, finishedAny v' id ds = finishedAny v id ds := by
    intro ds
    induction ds with
    | nil => rfl
    | cons d ds ih => unfold finishedAny; rw [hfin, ih]
  have hfall : ∀ ds, finishedAll v' id ds = finishedAll v id ds := by
    intro ds
    induction ds with
    | nil => rfl
    | cons d ds ih => unfold finishedAll; rw [hfin, ih]
  have hex : v'.inExactTimeMode = v.inExactTimeMode := by
    unfold View.inExactTimeMode; rw [h.mode, h.queue.length]
  cases k with
  | func f => exact hk v v' id o h.clock h.world
  | timeInterval r st fi si ei =>
    show timeIntervalFunc v' id o r st fi si ei = timeIntervalFunc v id o r st fi si ei
    unfold timeIntervalFunc
    simp only [hc, hex, layerOffset_same h.queue]
  | beforeNCalls d n ts => simp only [evalLeaf, callCount, h.totalEq (show P d from hk)]
  | atNCalls d n ts => simp only [evalLeaf, callCount, h.totalEq (show P d from hk)]
  | afterCall d n ts => simp only [evalLeaf, callCount, h.totalEq (show P d from hk)]
  | afterNCalls d n ts => simp only [evalLeaf, callCount, h.totalEq (show P d from hk)]
  | afterNCallsCombined ds n ts =>
    simp only [evalLeaf, hsum ts ds hk]
  | allHaveRun ds ts =>
    simp only [evalLeaf, h.nodes]
    apply hall
    by_cases hd : ds = []
    · intro d _; exact hk.1 hd d
    · rw [if_neg hd]; exact hk.2
  | everyNCalls d n => simp only [evalLeaf, h.useableEq (show Q d o from hk)]
  | justRan d => exact h.justRan d
  | _ => simp only [evalLeaf, relTime, hc, hfin, hany, hfall, h.nodes, h.world]

mutual
theorem eval_fixed (h : Alike id P Q v v') {b : Bool} {own : OId → Option α} :
    ∀ (c : Cond α κ W) (st : Store α κ), FixedCond b P Q own c → st.owner = own →
      eval v' id c st = eval v id c st
  | .leaf o k, st, hf, ho => by
    unfold eval; unfold FixedCond at hf; subst ho
    rw [evalLeaf_fixed h hf]
  | .whileNot o f, st, hf, ho => by
    unfold eval; unfold FixedCond at hf
    rw [hf v v' id _ h.clock h.world]
  | .all o args, st, hf, ho => by
    unfold eval; unfold FixedCond at hf; exact evalAll_fixed h args st hf ho
  | .any o args, st, hf, ho => by
    unfold eval; unfold FixedCond at hf; exact evalAny_fixed h args st hf ho
  | .not o c, st, hf, ho => by
    unfold eval; unfold FixedCond at hf; rw [eval_fixed h c st hf ho]
  | .nwhen o c n, st, hf, ho => by
    unfold eval; unfold FixedCond at hf; rw [eval_fixed h c st hf.2 ho]
theorem evalAll_fixed (h : Alike id P Q v v') {b : Bool} {own : OId → Option α} :
    ∀ (cs : List (Cond α κ W)) (st : Store α κ), FixedAll b P Q own cs → st.owner = own →
      evalAll v' id cs st = evalAll v id cs st
  | [], st, _, _ => rfl
  | c :: cs, st, hf, ho => by
    unfold FixedAll at hf
    simp only [evalAll]
    rw [eval_fixed h c st hf.1 ho]
    rcases hc : eval v id c st with ⟨e | b, st'⟩
    · rfl
    · cases b
      · rfl
      · exact evalAll_fixed h cs st' hf.2 ((eval_store' hc).owner.trans ho)
theorem evalAny_fixed (h : Alike id P Q v v') {b : Bool} {own : OId → Option α} :
    ∀ (cs : List (Cond α κ W)) (st : Store α κ), FixedAll b P Q own cs → st.owner = own →
      evalAny v' id cs st = evalAny v id cs st
  | [], st, _, _ => rfl
  | c :: cs, st, hf, ho => by
    unfold FixedAll at hf
    simp only [evalAny]
    rw [eval_fixed h c st hf.1 ho]
    rcases hc : eval v id c st with ⟨e | b, st'⟩
    · rfl
    · cases b
      · exact evalAny_fixed h cs st' hf.2 ((eval_store' hc).owner.trans ho)
      · rfl
end

mutual
theorem eval_fixed_store (v : View α κ W) (id : Option κ) {own : OId → Option α} :
    ∀ (c : Cond α κ W) (st : Store α κ), FixedCond false P Q own c → (eval v id c st).2 = st
  | .leaf o k, st, _ => rfl
  | .whileNot o f, st, _ => rfl
  | .all o args, st, hf => by
    unfold eval; unfold FixedCond at hf; exact evalAll_fixed_store v id args st hf
  | .any o args, st, hf => by
    unfold eval; unfold FixedCond at hf; exact evalAny_fixed_store v id args st hf
  | .not o c, st, hf => by
    unfold eval; unfold FixedCond at hf; exact eval_fixed_store v id c st hf
  | .nwhen o c n, st, hf => by unfold FixedCond at hf; cases hf.1
theorem evalAll_fixed_store (v : View α κ W) (id : Option κ) {own : OId → Option α} :
    ∀ (cs : List (Cond α κ W)) (st : Store α κ), FixedAll false P Q own cs → (evalAll v id cs st).2 = st
  | [], st, _ => rfl
  | c :: cs, st, hf => by
    unfold FixedAll at hf
    have h1 := eval_fixed_store v id c st hf.1
    simp only [evalAll]
    rcases hc : eval v id c st with ⟨e | b, st'⟩
    · rw [hc] at h1; exact h1
    · rw [hc] at h1
      cases b
      · exact h1
      · dsimp only at h1 ⊢; rw [h1]; exact evalAll_fixed_store v id cs st hf.2
theorem evalAny_fixed_store (v : View α κ W) (id : Option κ) {own : OId → Option α} :
    ∀ (cs : List (Cond α κ W)) (st : Store α κ), FixedAll false P Q own cs → (evalAny v id cs st).2 = st
  | [], st, _ => rfl
  | c :: cs, st, hf => by
    unfold FixedAll at hf
    have h1 := eval_fixed_store v id c st hf.1
    simp only [evalAny]
    rcases hc : eval v id c st with ⟨e | b, st'⟩
    · rw [hc] at h1; exact h1
    · rw [hc] at h1
      cases b
      · dsimp only at h1 ⊢; rw [h1]; exact evalAny_fixed_store v id cs st hf.2
      · exact h1
end

theorem callCount_rising (h : Alike id P Q v v') {d : α} {ts : TimeScale} {p : Int → Bool}
    (hp : ∀ i j : Int, i ≤ j → p i = true → p j = true) {b : Bool}
    (hb : callCount v id ts d p = .ok b) :
    ∃ b', callCount v' id ts d p = .ok b' ∧ (b = true → b' = true) := by
  unfold callCount at hb ⊢
  cases ht : v.total id ts d with
  | error e => rw [ht] at hb; cases hb
  | ok k =>
    obtain ⟨k', h1, h2⟩ := h.totalLe ht
    rw [ht] at hb
    rw [h1]
    injection hb with hb
    exact ⟨_, rfl, fun e => hp k k' (by omega) (hb.trans e)⟩

theorem evalLeaf_rising (h : Alike id P Q v v') {o : Option α} {k : Leaf α κ W} (hk : SmoothLeaf k)
    {b : Bool} (hb : evalLeaf v id o k = .ok b) :
    ∃ b', evalLeaf v' id o k = .ok b' ∧ (b = true → b' = true) := by
  have hsum : ∀ ts ds m, sumCalls v id ts ds = .ok m → ∃ m', sumCalls v' id ts ds = .ok m' ∧ m ≤ m' := by
    intro ts ds
    induction ds with
    | nil => intro m hm; exact ⟨m, hm, Nat.le_refl _⟩
    | cons d ds ih =>
      intro m hm
      unfold sumCalls at hm ⊢
      cases ht : v.total id ts d with
      | error e => rw [ht] at hm; cases hm
      | ok k =>
        obtain ⟨k', h1, h2⟩ := h.totalLe ht
        rw [ht] at hm
        rw [h1]
        dsimp only at hm ⊢
        cases hs : sumCalls v id ts ds with
        | error e => rw [hs] at hm; cases hm
        | ok j =>
          obtain ⟨j', h3, h4⟩ := ih j hs
          rw [hs] at hm
          rw [h3]
          injection hm with hm
          exact ⟨_, rfl, by omega⟩
  have hall : ∀ ts ds b, (∀ d ∈ ds, d ∈ v.nodes) → allHaveRunFunc v id ts ds = .ok b →
      ∃ b', allHaveRunFunc v' id ts ds = .ok b' ∧ (b = true → b' = true) := by
    intro ts ds
    induction ds with
    | nil => intro b _ hb; exact ⟨b, hb, fun e => e⟩
    | cons d ds ih =>
      intro b hd hb
      have ih' : ∃ b', allHaveRunFunc v' id ts ds = .ok b' := by
        clear hb ih
        obtain ⟨f, f', _, h2, _⟩ := h.total
        induction ds with
        | nil => exact ⟨true, rfl⟩
        | cons x xs ih =>
          have hx : v'.total id ts x = .ok (f' ts x) := by
            unfold View.total
            rw [h2, h.nodes]
            simp only [hd x (by simp), if_true]
          simp only [allHaveRunFunc, hx]
          split
          · exact ⟨_, rfl⟩
          · exact ih fun y hy => hd y (by
              rcases List.mem_cons.1 hy with hy | hy
              · simp [hy]
              · simp [hy])
      unfold allHaveRunFunc at hb ⊢
      cases ht : v.total id ts d with
      | error e => rw [ht] at hb; cases e <;> cases hb
      | ok k =>
        obtain ⟨k', h1, h2⟩ := h.totalLe ht
        rw [ht] at hb
        rw [h1]
        dsimp only at hb ⊢
        by_cases h3 : k < 1
        · rw [if_pos h3] at hb
          injection hb with hb
          subst hb
          by_cases h4 : k' < 1
          · rw [if_pos h4]; exact ⟨_, rfl, fun e => e⟩
          · rw [if_neg h4]
            obtain ⟨b', hb'⟩ := ih'
            exact ⟨b', hb', fun e => by cases e⟩
        · rw [if_neg h3] at hb
          rw [if_neg (by omega)]
          exact ih b (fun x hx => hd x (by simp [hx])) hb
  cases k with
  | afterCall d n ts =>
    simp only [evalLeaf] at hb ⊢
    exact callCount_rising h (fun i j hij hi => by simp at hi ⊢; omega) hb
  | afterNCalls d n ts =>
    simp only [evalLeaf] at hb ⊢
    exact callCount_rising h (fun i j hij hi => by simp at hi ⊢; omega) hb
  | afterNCallsCombined ds n ts =>
    cases n with
    | none => cases hb
    | some n =>
      simp only [evalLeaf] at hb ⊢
      cases hs : sumCalls v id ts ds with
      | error e => rw [hs] at hb; cases hb
      | ok m =>
        obtain ⟨m', h1, h2⟩ := hsum ts ds m hs
        rw [hs] at hb
        rw [h1]
        injection hb with hb
        refine ⟨_, rfl, fun e => ?_⟩
        rw [← hb] at e
        simp at e ⊢
        omega
  | allHaveRun ds ts =>
    have hk : ds = [] := hk
    subst hk
    simp only [evalLeaf, if_true, h.nodes] at hb ⊢
    exact hall ts v.nodes b (fun _ hd => hd) hb
  | _ => exact hk.elim

theorem allHaveRun_rising (h : Alike id P Q v v') {ts : TimeScale} {ds : List α}
    (hb : allHaveRunFunc v id ts ds = .ok true) : allHaveRunFunc v' id ts ds = .ok true := by
  induction ds with
  | nil => rfl
  | cons d ds ih =>
    unfold allHaveRunFunc at hb ⊢
    cases ht : v.total id ts d with
    | error e => rw [ht] at hb; cases e <;> cases hb
    | ok k =>
      obtain ⟨k', h1, h2⟩ := h.totalLe ht
      rw [ht] at hb
      rw [h1]
      dsimp only at hb ⊢
      by_cases h3 : k < 1
      · rw [if_pos h3] at hb; cases hb
      · rw [if_neg h3] at hb
        rw [if_neg (by omega)]
        exact ih hb

theorem Spec.SmoothCond.store {own : OId → Option α} {c : Cond α κ W} (hc : SmoothCond P Q own c)
    (v : View α κ W) (id : Option κ) (st : Store α κ) : (eval v id c st).2 = st := by
  induction hc with
  | fixed hf => exact eval_fixed_store v id _ st hf
  | leaf _ => rfl
  | @any o args hs ih =>
    unfold eval
    induction args with
    | nil => rfl
    | cons c cs ihc =>
      have h1 := ih c (by simp)
      simp only [evalAny]
      rcases hc : eval v id c st with ⟨e | b, st'⟩
      · rw [hc] at h1; exact h1
      · rw [hc] at h1
        cases b
        · dsimp only at h1 ⊢; rw [h1]; exact ihc (fun x hx => hs x (by simp [hx])) fun x hx => ih x (by simp [hx])
        · exact h1

/-- With further selections, an evaluation that does not raise gives a result that is at
least as true. -/
theorem Spec.SmoothCond.up (h : Alike id P Q v v') {st : Store α κ} {c : Cond α κ W}
    (hc : SmoothCond P Q st.owner c) :
    ∀ {b : Bool}, (eval v id c st).1 = .ok b → ∃ b', (eval v' id c st).1 = .ok b' ∧ (b = true → b' = true) := by
  generalize ho : st.owner = own at hc
  induction hc with
  | fixed hf =>
    intro b hb
    rw [eval_fixed h _ st hf ho]
    exact ⟨b, hb, fun e => e⟩
  | @leaf o k hk =>
    intro b hb
    unfold eval at hb ⊢
    exact evalLeaf_rising h hk hb
  | @any o args hs ih =>
    unfold eval
    induction args with
    | nil => intro b hb; exact ⟨b, hb, fun e => e⟩
    | cons c cs ihc =>
      intro b hb
      have h1 := (hs c (by simp)).store v id st
      have h1' := (hs c (by simp)).store v' id st
      have h2 := @ih c (by simp)
      simp only [evalAny] at hb ⊢
      rcases hc : eval v id c st with ⟨e | b1, st'⟩
      · rw [hc] at hb; cases hb
      · rw [hc] at h1 hb h2
        dsimp only at h1
        subst h1
        obtain ⟨b2, h3, h4⟩ := h2 rfl
        rcases hc' : eval v' id c st' with ⟨e | b3, st2⟩
        · rw [hc'] at h3; cases h3
        · rw [hc'] at h1' h3
          dsimp only at h1'
          subst h1'
          injection h3 with h3
          subst h3
          cases b3
          · cases b1
            · exact ihc (fun x hx => hs x (by simp [hx])) (fun x hx => @ih x (by simp [hx])) hb
            · simp at h4
          · exact ⟨true, rfl, fun _ => rfl⟩

theorem Spec.RisingCond.store {own : OId → Option α} {c : Cond α κ W} (hc : RisingCond P Q own c)
    (v : View α κ W) (id : Option κ) (st : Store α κ) : (eval v id c st).2 = st := by
  induction hc with
  | smooth hf => exact hf.store v id st
  | allHaveRun => rfl
  | @all o args hs ih =>
    unfold eval
    induction args with
    | nil => rfl
    | cons c cs ihc =>
      have h1 := ih c (by simp)
      simp only [evalAll]
      rcases hc : eval v id c st with ⟨e | b, st'⟩
      · rw [hc] at h1; exact h1
      · rw [hc] at h1
        cases b
        · exact h1
        · dsimp only at h1 ⊢; rw [h1]; exact ihc (fun x hx => hs x (by simp [hx])) fun x hx => ih x (by simp [hx])

/-- A satisfied condition stays satisfied when further nodes are selected. -/
theorem Spec.RisingCond.up (h : Alike id P Q v v') {st : Store α κ} {c : Cond α κ W}
    (hc : RisingCond P Q st.owner c) (hb : (eval v id c st).1 = .ok true) :
    (eval v' id c st).1 = .ok true := by
  generalize ho : st.owner = own at hc
  induction hc with
  | smooth hf =>
    subst ho
    obtain ⟨b', h1, h2⟩ := hf.up h hb
    rw [h1, h2 rfl]
  | @allHaveRun o ds ts =>
    unfold eval at hb ⊢
    simp only [evalLeaf, h.nodes] at hb ⊢
    exact allHaveRun_rising h hb
  | @all o args hs ih =>
    unfold eval at hb ⊢
    induction args with
    | nil => rfl
    | cons c cs ihc =>
      have h1 := (hs c (by simp)).store v id st
      have h1' := (hs c (by simp)).store v' id st
      have h2 := ih c (by simp)
      simp only [evalAll] at hb ⊢
      rcases hc : eval v id c st with ⟨e | b1, st'⟩
      · rw [hc] at hb; cases hb
      · rw [hc] at h1 hb h2
        dsimp only at h1
        subst h1
        cases b1
        · cases hb
        · have h3 := h2 rfl
          rcases hc' : eval v' id c st' with ⟨e | b3, st2⟩
          · rw [hc'] at h3; cases h3
          · rw [hc'] at h1' h3
            dsimp only at h1'
            subst h1'
            injection h3 with h3
            subst h3
            exact ihc (fun x hx => hs x (by simp [hx])) (fun x hx => ih x (by simp [hx])) hb

end
end GS

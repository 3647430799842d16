import Verif.TimeLemmas
import Verif.Spec.Time
/-!
# Lemmas relating the history tree to the specification
-/

set_option linter.unusedSectionVars false
set_option linter.unusedSimpArgs false

namespace GS
open Spec

/-! ## Current time -/

theorem field_nil (s : TimeScale) : field [] s = 0 := rfl

theorem field_snoc (log : List TimeScale) (ts s : TimeScale) :
    field (log ++ [ts]) s =
      if s.val < ts.val then 0 else if s = ts then field log s + 1 else field log s := by
  unfold field
  simp only [List.reverse_append, List.reverse_cons, List.reverse_nil, List.nil_append,
    List.singleton_append, List.takeWhile_cons]
  by_cases h : ts.val ≤ s.val
  · have h' : ¬ s.val < ts.val := by omega
    by_cases e : s = ts
    · subst e; simp
    · have e' : ¬ ts = s := fun x => e x.symm
      simp [h, h', e, List.count_cons, e']
  · have h' : s.val < ts.val := by omega
    simp [h, h']

/-- The time after a list of increments. -/
def Time.incrs (t : Time) (log : List TimeScale) : Time := log.foldl Time.incr t

theorem Time.incr_at (t : Time) (ts s : TimeScale) :
    (t.incr ts).at_ s =
      if s.val < ts.val then 0 else if s = ts then t.at_ s + 1 else t.at_ s := by
  have : (t.incr ts).at_ s = ((t.set ts (t.get ts + 1)).reset ts).at_ s := by
    unfold Time.incr; dsimp only; split <;> rfl
  rw [this]
  by_cases h : s.val < ts.val
  · simp [Time.reset, h]
  · by_cases e : s = ts
    · subst e; simp [Time.reset, Time.set, Time.get]
    · simp [Time.reset, Time.set, Time.get, h, e]

theorem Time.incrs_at (log : List TimeScale) (s : TimeScale) :
    (Time.zero.incrs log).at_ s = field log s := by
  unfold Time.incrs
  rw [← List.foldr_reverse]
  generalize hr : log.reverse = r
  have hl : log = r.reverse := by rw [← hr, List.reverse_reverse]
  subst hl
  clear hr
  induction r with
  | nil => simp [field_nil, Time.zero]
  | cons x xs ih =>
    simp only [List.foldr_cons, List.reverse_cons, field_snoc]
    rw [Time.incr_at, ih]

/-! ## Counting -/

theorem countWhen_nil (P : List TimeScale → Bool) (q : TimeScale) : countWhen P q [] = 0 := rfl

theorem countWhen_snoc (P : List TimeScale → Bool) (q ts : TimeScale) (log : List TimeScale) :
    countWhen P q (log ++ [ts]) = countWhen P q log + if ts = q ∧ P log = true then 1 else 0 := by
  unfold countWhen
  rw [List.length_append, List.length_singleton, List.range_succ, List.filter_append,
    List.length_append]
  congr 1
  · congr 1
    apply List.filter_congr
    intro p hp
    have hp' : p < log.length := by simpa using hp
    simp [List.getElem?_append_left hp', List.take_append_of_le_length (Nat.le_of_lt hp')]
  · by_cases h1 : ts = q <;> by_cases h2 : P log = true <;> simp [h1, h2]

theorem countWhen_true (q : TimeScale) (log : List TimeScale) :
    countWhen (fun _ => true) q log = log.count q := by
  generalize hr : log.reverse = r
  have hl : log = r.reverse := by rw [← hr, List.reverse_reverse]
  subst hl
  clear hr
  induction r with
  | nil => rfl
  | cons x xs ih =>
    simp only [List.reverse_cons, countWhen_snoc, ih, List.count_append]
    by_cases h : x = q
    · subst h; simp
    · have h0 : ([x] : List TimeScale).count q = 0 :=
        List.count_eq_zero.2 (by simpa using fun e : q = x => h e.symm)
      simp [h, h0]

theorem countWhen_congr {P Q : List TimeScale → Bool} (q : TimeScale) (log : List TimeScale)
    (h : ∀ pre, pre <+: log → P pre = Q pre) : countWhen P q log = countWhen Q q log := by
  unfold countWhen
  congr 1
  apply List.filter_congr
  intro p _
  rw [h _ (List.take_prefix p log)]

/-- Snoc induction. -/
theorem snocInd {β : Type _} {M : List β → Prop} (h0 : M [])
    (h1 : ∀ l x, M l → M (l ++ [x])) : ∀ l, M l := by
  intro l
  generalize hr : l.reverse = r
  have hl : l = r.reverse := by rw [← hr, List.reverse_reverse]
  subst hl
  clear hr
  induction r with
  | nil => exact h0
  | cons x xs ih => rw [List.reverse_cons]; exact h1 _ _ ih

theorem segs_length (c : TimeScale) (log : List TimeScale) :
    (segs c.val log).length = log.count c + 1 := by
  induction log using snocInd with
  | h0 => rfl
  | h1 l x ih =>
    rw [segs_snoc]
    by_cases h : x.val = c.val
    · have := TimeScale.val_inj h; subst this
      simp [ih]
    · have h' : ¬ x = c := fun e => h (by rw [e])
      have hne := segs_ne_nil c.val l
      have hl : 0 < (segs c.val l).length := List.length_pos_iff.2 hne
      simp only [h, if_false, List.length_append, List.length_dropLast, List.length_singleton,
        List.count_append]
      have h0 : ([x] : List TimeScale).count c = 0 :=
        List.count_eq_zero.2 (by simpa using fun e : c = x => h' e.symm)
      omega

/-- The part of the history after the last increment of the scale `c`. -/
def after (k : Nat) (log : List TimeScale) : List TimeScale := (segs k log).getLast?.getD []

theorem after_snoc (k : Nat) (log : List TimeScale) (ts : TimeScale) :
    after k (log ++ [ts]) = if ts.val = k then [] else after k log ++ [ts] := by
  unfold after
  rw [segs_snoc]
  split <;> simp

theorem getElem?_last {β : Type _} (l : List β) (i : Nat) (h : i + 1 = l.length) :
    l[i]? = l.getLast? := by
  rw [List.getLast?_eq_getElem?]; congr 1; omega

/-- Counting in one segment is counting in the whole history while the segment's
scale has the segment's number. -/
theorem countWhen_seg (c q : TimeScale) (hq : q.val < c.val) (P : List TimeScale → Bool)
    (i : Nat) (log : List TimeScale) :
    countWhen P q ((segs c.val log)[i]?.getD []) =
      countWhen (fun pre => decide (pre.count c = i) && P (after c.val pre)) q log := by
  induction log using snocInd with
  | h0 =>
    cases i with
    | zero => rfl
    | succ i => simp [segs, countWhen_nil]
  | h1 l x ih =>
    have hlen := segs_length c l
    rw [segs_snoc, countWhen_snoc, ← ih]
    by_cases h : x.val = c.val
    · have := TimeScale.val_inj h; subst this
      have hxq : ¬ x = q := fun e => by subst e; omega
      simp only [if_true, hxq, false_and, if_false, Nat.add_zero]
      by_cases hi : i < (segs x.val l).length
      · rw [List.getElem?_append_left hi]
      · rw [List.getElem?_append_right (by omega), List.getElem?_eq_none (l := segs x.val l) (by omega)]
        cases i - (segs x.val l).length <;> simp [countWhen_nil]
    · simp only [h, if_false]
      have hne := segs_ne_nil c.val l
      have hd : (segs c.val l).dropLast.length + 1 = (segs c.val l).length := by
        rw [List.length_dropLast]; omega
      by_cases hi : i < (segs c.val l).dropLast.length
      · rw [List.getElem?_append_left hi, List.getElem?_dropLast]
        have h1 : i < (segs c.val l).length - 1 := by omega
        have h2 : ¬ l.count c = i := by omega
        simp [h1, h2]
      · rw [List.getElem?_append_right (by omega)]
        by_cases hi2 : i = (segs c.val l).dropLast.length
        · have : (segs c.val l)[i]? = (segs c.val l).getLast? :=
            getElem?_last _ _ (by omega)
          rw [this]
          have h2 : l.count c = i := by omega
          simp only [hi2, Nat.sub_self, List.getElem?_cons_zero, Option.getD_some, countWhen_snoc]
          rw [← hi2]
          simp [h2, after]
        · have h2 : ¬ l.count c = i := by omega
          rw [List.getElem?_eq_none (l := segs c.val l) (by omega),
            List.getElem?_eq_none (by simp only [List.length_singleton]; omega)]
          simp [h2, countWhen_nil]

/-- The field of scale `k` is the count after the last coarser increment; for three
levels this is iterated `after`. -/
theorem field_eq_count {log : List TimeScale} {s : TimeScale}
    (h : ∀ e ∈ log, e.val ≤ s.val) : field log s = log.count s := by
  induction log using snocInd with
  | h0 => rfl
  | h1 l x ih =>
    have hx := h x (by simp)
    have hx' : ¬ s.val < x.val := by omega
    rw [field_snoc, ih (fun e he => h e (by simp [he])), List.count_append]
    by_cases e : s = x
    · subst e; simp
    · have h0 : ([x] : List TimeScale).count s = 0 :=
        List.count_eq_zero.2 (by simpa using e)
      simp [e, h0, hx']

theorem field_after {s c : TimeScale} (hc : s.val < c.val) (log : List TimeScale)
    : field log s = field (after c.val log) s ∨ ∃ e ∈ log, c.val < e.val := by
  induction log using snocInd with
  | h0 => left; rfl
  | h1 l x ih =>
    rcases ih with ih | ⟨e, he, h⟩
    · by_cases hx : c.val < x.val
      · exact .inr ⟨x, by simp, hx⟩
      · left
        rw [after_snoc, field_snoc]
        by_cases h : x.val = c.val
        · simp only [h, hc, if_true]; rfl
        · simp only [h, if_false, field_snoc, ih]
    · exact .inr ⟨e, by simp [he], h⟩

theorem after_mem {k : Nat} {log : List TimeScale} {e : TimeScale} (h : e ∈ after k log) :
    e ∈ log ∧ e.val ≠ k := by
  induction log using snocInd with
  | h0 => simp [after, segs] at h
  | h1 l x ih =>
    rw [after_snoc] at h
    by_cases hx : x.val = k
    · simp [hx] at h
    · simp only [hx, if_false, List.mem_append, List.mem_singleton] at h
      rcases h with h | h
      · exact ⟨by simp [(ih h).1], (ih h).2⟩
      · subst h; exact ⟨by simp, hx⟩

theorem field_after' {s c : TimeScale} (hc : s.val < c.val) {log : List TimeScale}
    (h : ∀ e ∈ log, e.val ≤ c.val) : field (after c.val log) s = field log s := by
  rcases field_after hc log with e | ⟨e, he, h'⟩
  · exact e.symm
  · have := h e he; omega

theorem mem_seg {c : TimeScale} {log : List TimeScale} {i : Nat} {e : TimeScale}
    (h : e ∈ (segs c.val log)[i]?.getD []) : e ∈ log ∧ e ≠ c := by
  induction log using snocInd generalizing i with
  | h0 => cases i <;> simp [segs] at h
  | h1 l x ih =>
    rw [segs_snoc] at h
    by_cases hx : x.val = c.val
    · simp only [hx, if_true] at h
      by_cases hi : i < (segs c.val l).length
      · rw [List.getElem?_append_left hi] at h
        exact ⟨by simp [(ih h).1], (ih h).2⟩
      · rw [List.getElem?_append_right (by omega)] at h
        cases hh : i - (segs c.val l).length <;> simp [hh] at h
    · simp only [hx, if_false] at h
      by_cases hi : i < (segs c.val l).dropLast.length
      · rw [List.getElem?_append_left hi, List.getElem?_dropLast] at h
        split at h
        · exact ⟨by simp [(ih h).1], (ih h).2⟩
        · simp at h
      · rw [List.getElem?_append_right (by omega)] at h
        cases hh : i - (segs c.val l).dropLast.length with
        | succ n => rw [hh] at h; simp at h
        | zero =>
          simp only [hh, List.getElem?_cons_zero, Option.getD_some, List.mem_append,
            List.mem_singleton] at h
          rcases h with h | h
          · have h' : e ∈ after c.val l := h
            have := after_mem h'
            exact ⟨by simp [this.1], fun e' => this.2 (by rw [e'])⟩
          · subst h; exact ⟨by simp, fun e' => hx (by rw [e'])⟩


/-! ## Walking the tree -/

/-- The two walks of `get_total_times_relative` as one. -/
def Tree.walk1 (base : TimeScale) : Nat → Tree → (TimeScale → Option Int) → Except Err Tree
  | 0, t, _ => .ok t
  | fuel + 1, t, idx =>
    if base.val < t.scale then
      match TimeScale.ofVal (t.scale - 1) with
      | .error e => .error e
      | .ok cs =>
        let i : Int := Tree.pickIdx (idx cs) t.children.length
        match pyIndex t.children i with
        | .error e => .error e
        | .ok c => Tree.walk1 base fuel c idx
    else .ok t

theorem TimeScale.ofVal_val {n : Nat} {c : TimeScale} (h : TimeScale.ofVal n = .ok c) :
    c.val = n := by
  unfold TimeScale.ofVal at h
  split at h <;> (try cases h) <;> rfl

theorem Tree.ofLog_scale (md : TimeScale) (k i : Nat) (log : List TimeScale) :
    (Tree.ofLog md k i log).scale = k := by cases k <;> rfl

/-- What index the code uses among `count + 1` children. -/
def resolveIdx (g : Option Int) (latest : Nat) : Option Nat :=
  match g with
  | none => some latest
  | some i =>
    if 0 ≤ i then (if i.toNat ≤ latest then some i.toNat else none)
    else if -i ≤ (latest : Int) + 1 then some ((latest : Int) + 1 + i).toNat else none

theorem resolveIdx_chooses (g : Option Int) (latest n : Nat) :
    resolveIdx g latest = some n ↔ Chooses g latest n := by
  cases g with
  | none => simp [resolveIdx, Chooses, eq_comm]
  | some i =>
    simp only [resolveIdx, Chooses]
    split
    · split
      · simp only [Option.some.injEq]; omega
      · simp only [reduceCtorEq, false_iff]; omega
    · split
      · simp only [Option.some.injEq]; omega
      · simp only [reduceCtorEq, false_iff]; omega

theorem pyIndex_resolve {β : Type _} (l : List β) (g : Option Int) (latest : Nat)
    (hl : l.length = latest + 1) :
    pyIndex l (Tree.pickIdx g l.length) =
      match resolveIdx g latest with
      | none => .error .indexError
      | some n => orIndexError l[n]? := by
  cases g with
  | none =>
    have e : Tree.pickIdx none l.length = (l.length : Int) - 1 := rfl
    rw [e]
    unfold pyIndex
    rw [if_pos (by omega)]
    have : ((l.length : Int) - 1).toNat = latest := by omega
    rw [this]; rfl
  | some i =>
    have e : Tree.pickIdx (some i) l.length = i := rfl
    rw [e]
    unfold pyIndex resolveIdx
    dsimp only
    by_cases h0 : 0 ≤ i
    · rw [if_pos h0, if_pos h0]
      by_cases h1 : i.toNat ≤ latest
      · rw [if_pos h1]
      · rw [if_neg h1, List.getElem?_eq_none (by omega)]; rfl
    · rw [if_neg h0, if_neg h0]
      by_cases h1 : -i ≤ (latest : Int) + 1
      · rw [if_pos (by omega), if_pos h1]
        have : ((l.length : Int) + i).toNat = ((latest : Int) + 1 + i).toNat := by omega
        rw [this]
      · rw [if_neg (by omega), if_neg h1]

theorem mem_of_pyIndex {β : Type _} {l : List β} {i : Int} {b : β}
    (h : pyIndex l i = .ok b) : b ∈ l := by
  have key : ∀ o : Option β, orIndexError o = .ok b → o = some b := by
    intro o ho; cases o <;> simp [orIndexError] at ho; rw [ho]
  unfold pyIndex at h
  split at h
  · exact List.mem_of_getElem? (key _ h)
  · split at h
    · exact List.mem_of_getElem? (key _ h)
    · simp at h

/-- Every child of a node has the next finer scale. -/
inductive Tree.Scaled : Tree → Prop
  | mk (sc idx : Nat) (ch : List Tree) (tot : TimeScale → Nat)
      (h : ∀ c ∈ ch, c.scale + 1 = sc) (h' : ∀ c ∈ ch, Scaled c) : Scaled (.node sc idx ch tot)

theorem Tree.ofLog_scaled (md : TimeScale) : ∀ (k i : Nat) (log : List TimeScale),
    (Tree.ofLog md k i log).Scaled := by
  intro k
  induction k with
  | zero => intro i log; exact .mk _ _ _ _ (by simp) (by simp)
  | succ k ih =>
    intro i log
    rw [Tree.ofLog]
    have key : ∀ c ∈ (if md.val ≤ k then (segs k log).mapIdx (fun i s => Tree.ofLog md k i s)
        else []), c.scale + 1 = k + 1 ∧ c.Scaled := by
      intro c hc
      split at hc
      · rw [List.mem_mapIdx] at hc
        obtain ⟨j, hj, rfl⟩ := hc
        exact ⟨by rw [Tree.ofLog_scale], ih _ _⟩
      · simp at hc
    exact .mk _ _ _ _ (fun c hc => (key c hc).1) (fun c hc => (key c hc).2)

/-- The filling walk only sets indices of scales finer than the node it starts from. -/
theorem Tree.fillWalk_coarse (base : TimeScale) : ∀ (fuel : Nat) (t : Tree)
    (idx idx' : TimeScale → Option Int), t.Scaled →
    Tree.fillWalk base fuel t idx = .ok idx' → ∀ s, t.scale ≤ s.val → idx' s = idx s := by
  intro fuel
  induction fuel with
  | zero => intro t idx idx' _ h s _; simp only [fillWalk, Except.ok.injEq] at h; rw [h]
  | succ f ih =>
    intro t idx idx' hs h s hle
    rw [fillWalk] at h
    split at h
    · cases hcs : TimeScale.ofVal (t.scale - 1) with
      | error e => rw [hcs] at h; simp at h
      | ok cs =>
        rw [hcs] at h
        dsimp only at h
        split at h
        · simp at h
        · rename_i c hc
          have hm := mem_of_pyIndex hc
          cases hs with
          | mk sc i ch tot hch hch' =>
            have hc2 := And.intro (hch c hm) (hch' c hm)
            have e1 := TimeScale.ofVal_val hcs
            simp only [Tree.scale] at e1 hle
            have := ih c _ _ hc2.2 h s (by omega)
            rw [this]
            have hne : s ≠ cs := fun e => by subst e; omega
            simp [hne]
    · simp only [Except.ok.injEq] at h; rw [h]

theorem Tree.fill_then_walk (base : TimeScale) : ∀ (fuel : Nat) (t : Tree)
    (idx : TimeScale → Option Int), t.Scaled → base.val ≤ t.scale → t.scale ≤ base.val + fuel →
    (match Tree.fillWalk base fuel t idx with
      | .error e => (.error e : Except Err Tree)
      | .ok idx' => Tree.walk base fuel t idx') = Tree.walk1 base fuel t idx := by
  intro fuel
  induction fuel with
  | zero => intro t idx _ _ _; rfl
  | succ f ih =>
    intro t idx hs hb hf
    rw [fillWalk, walk1]
    by_cases hlt : base.val < t.scale
    · simp only [hlt, if_true]
      cases hcs : TimeScale.ofVal (t.scale - 1) with
      | error e => rfl
      | ok cs =>
        dsimp only
        have e1 := TimeScale.ofVal_val hcs
        generalize hi : pickIdx (idx cs) t.children.length = i
        cases hp : pyIndex t.children i with
        | error e => rfl
        | ok c =>
          dsimp only
          have hm := mem_of_pyIndex hp
          cases hs with
          | mk sc ix ch tot hch hch' =>
            simp only [Tree.children] at hm
            have hc := And.intro (hch c hm) (hch' c hm)
            simp only [Tree.scale] at e1 hb hf hlt
            have hw := ih c (fun s => if s = cs then some i else idx s) hc.2 (by omega) (by omega)
            have hside : Tree.walk1 base f c (fun s => if s = cs then some i else idx s) =
                Tree.walk1 base f c idx := by
              have key : ∀ (f : Nat) (c : Tree) (cs : TimeScale) (i : Int), c.Scaled →
                  c.scale ≤ cs.val →
                  Tree.walk1 base f c (fun s => if s = cs then some i else idx s) =
                  Tree.walk1 base f c idx := by
                intro f
                induction f with
                | zero => intros; rfl
                | succ f ihf =>
                  intro c cs i hsc hle
                  rw [walk1, walk1]
                  split
                  · rename_i hlt2
                    cases hcs2 : TimeScale.ofVal (c.scale - 1) with
                    | error e => rfl
                    | ok c2 =>
                      have e2 := TimeScale.ofVal_val hcs2
                      have hne : c2 ≠ cs := fun e => by subst e; omega
                      simp only [hne, if_false]
                      split
                      · rfl
                      · rename_i d hd
                        have hm2 := mem_of_pyIndex hd
                        cases hsc with
                        | mk sc2 ix2 ch2 tot2 hch2 hch2' =>
                          have h3 := And.intro (hch2 d hm2) (hch2' d hm2)
                          simp only [Tree.scale] at hle
                          exact ihf d cs i h3.2 (by omega)
                  · rfl
              exact key f c cs i hc.2 (by omega)
            rw [← hside, ← hw]
            cases hfw : Tree.fillWalk base f c (fun s => if s = cs then some i else idx s) with
            | error e => rfl
            | ok idx' =>
              dsimp only
              rw [walk]
              have hne : ¬ (node sc ix ch tot).scale = base.val := by
                simp only [Tree.scale]; omega
              rw [if_neg hne, hcs]
              dsimp only
              have := Tree.fillWalk_coarse base f c _ idx' hc.2 hfw cs (by omega)
              rw [this]
              simp only [if_true, hp]
    · have he : t.scale = base.val := by omega
      simp only [hlt, if_false]
      rw [walk, if_pos he]

/-- One step of the walk in the tree of a history. -/
theorem Tree.walk1_ofLog (md base c : TimeScale) (f j : Nat) (log : List TimeScale)
    (idx : TimeScale → Option Int) (hb : base.val ≤ c.val) (hc : c ≠ .life) :
    Tree.walk1 base (f + 1) (Tree.ofLog md (c.val + 1) j log) idx =
      if md.val ≤ c.val then
        match resolveIdx (idx c) (log.count c) with
        | none => .error .indexError
        | some n => Tree.walk1 base f
            (Tree.ofLog md c.val n ((segs c.val log)[n]?.getD [])) idx
      else .error .indexError := by
  rw [walk1, Tree.ofLog_scale, if_pos (by omega)]
  have hov : TimeScale.ofVal (c.val + 1 - 1) = .ok c := by cases c <;> rfl
  rw [hov]
  dsimp only
  by_cases hm : md.val ≤ c.val
  · have hch : (Tree.ofLog md (c.val + 1) j log).children =
        (segs c.val log).mapIdx (fun i s => Tree.ofLog md c.val i s) := by
      rw [Tree.ofLog]; simp [hm, Tree.children]
    have hlen : (Tree.ofLog md (c.val + 1) j log).children.length = log.count c + 1 := by
      rw [hch, List.length_mapIdx, segs_length]
    rw [pyIndex_resolve _ (idx c) (log.count c) hlen]
    simp only [hm, if_true]
    cases hr : resolveIdx (idx c) (log.count c) with
    | none => rfl
    | some n =>
      dsimp only
      have hn : n ≤ log.count c := by
        have := (resolveIdx_chooses _ _ _).1 hr
        unfold Chooses at this
        split at this <;> omega
      rw [hch, List.getElem?_mapIdx]
      have : n < (segs c.val log).length := by rw [segs_length]; omega
      simp [this, orIndexError]
  · have hch : (Tree.ofLog md (c.val + 1) j log).children = [] := by
      rw [Tree.ofLog]; simp [hm, Tree.children]
    simp only [hm, if_false, hch]
    have : ∀ i : Int, pyIndex ([] : List Tree) i = .error .indexError := by
      intro i; unfold pyIndex; split
      · simp [orIndexError]
      · split <;> simp [orIndexError]
    rw [this]

theorem Tree.walk1_done (md base : TimeScale) (f j : Nat) (log : List TimeScale)
    (idx : TimeScale → Option Int) :
    Tree.walk1 base f (Tree.ofLog md base.val j log) idx = .ok (Tree.ofLog md base.val j log) := by
  cases f with
  | zero => rfl
  | succ f => rw [walk1, Tree.ofLog_scale, if_neg (by omega)]

end GS

namespace GS
open Spec

/-! ## Counting in nested periods -/

section nested
open TimeScale

/-- The `i`-th segment at scale `c`. -/
def seg (c : TimeScale) (i : Nat) (log : List TimeScale) : List TimeScale :=
  (segs c.val log)[i]?.getD []

theorem count_seg3 {log : List TimeScale} (hl : ∀ e ∈ log, e ≠ life) (n3 : Nat) (q : TimeScale)
    (hq : q.val < 3) (P : List TimeScale → Bool) :
    countWhen P q (seg environment_sequence n3 log) =
      countWhen (fun pre => decide (field pre environment_sequence = n3) && P (after 3 pre)) q log := by
  unfold seg
  rw [countWhen_seg environment_sequence q hq]
  apply countWhen_congr
  intro pre hp
  rw [field_eq_count]
  · rfl
  · intro e he
    have := hl e (hp.subset he)
    revert this; cases e <;> simp [val]

theorem count_seg2 {log : List TimeScale} (hl : ∀ e ∈ log, e.val < 3) (n2 : Nat) (q : TimeScale)
    (hq : q.val < 2) (P : List TimeScale → Bool) :
    countWhen P q (seg environment_state_update n2 log) =
      countWhen (fun pre => decide (field pre environment_state_update = n2) && P (after 2 pre)) q log := by
  unfold seg
  rw [countWhen_seg environment_state_update q hq]
  apply countWhen_congr
  intro pre hp
  rw [field_eq_count]
  · rfl
  · intro e he
    have := hl e (hp.subset he)
    revert this; cases e <;> simp [val]

theorem count_seg1 {log : List TimeScale} (hl : ∀ e ∈ log, e.val < 2) (n1 : Nat) (q : TimeScale)
    (hq : q.val < 1) (P : List TimeScale → Bool) :
    countWhen P q (seg pass n1 log) =
      countWhen (fun pre => decide (field pre pass = n1) && P (after 1 pre)) q log := by
  unfold seg
  rw [countWhen_seg pass q hq]
  apply countWhen_congr
  intro pre hp
  rw [field_eq_count]
  · rfl
  · intro e he
    have := hl e (hp.subset he)
    revert this; cases e <;> simp [val]

theorem seg3_lt {log : List TimeScale} (hl : ∀ e ∈ log, e ≠ life) (n : Nat) :
    ∀ e ∈ seg environment_sequence n log, e.val < 3 := by
  intro e he
  have h := mem_seg he
  have := hl e h.1
  have h2 := h.2
  revert this h2; cases e <;> simp [val]

theorem seg2_lt {log : List TimeScale} (hl : ∀ e ∈ log, e.val < 3) (n : Nat) :
    ∀ e ∈ seg environment_state_update n log, e.val < 2 := by
  intro e he
  have h := mem_seg he
  have := hl e h.1
  have h2 := h.2
  revert this h2; cases e <;> simp [val]

theorem after_prefix_lt3 {log pre : List TimeScale} (hl : ∀ e ∈ log, e ≠ life) (hp : pre <+: log) :
    ∀ e ∈ pre, e.val ≤ 3 := by
  intro e he
  have := hl e (hp.subset he)
  revert this; cases e <;> simp [val]

theorem count_L2 {log : List TimeScale} (hl : ∀ e ∈ log, e ≠ life) (n3 : Nat) (q : TimeScale)
    (hq : q.val < 3) :
    (seg environment_sequence n3 log).count q =
      countWhen (fun pre => decide (field pre environment_sequence = n3)) q log := by
  rw [← countWhen_true, count_seg3 hl n3 q hq]
  simp

theorem count_L1 {log : List TimeScale} (hl : ∀ e ∈ log, e ≠ life) (n3 n2 : Nat) (q : TimeScale)
    (hq : q.val < 2) :
    (seg environment_state_update n2 (seg environment_sequence n3 log)).count q =
      countWhen (fun pre => decide (field pre environment_sequence = n3) &&
        decide (field pre environment_state_update = n2)) q log := by
  rw [← countWhen_true, count_seg2 (seg3_lt hl n3) n2 q hq, count_seg3 hl n3 q (by omega)]
  apply countWhen_congr
  intro pre hp
  have := field_after' (s := environment_state_update) (c := environment_sequence) (by decide)
    (after_prefix_lt3 hl hp)
  have e : environment_sequence.val = 3 := rfl
  rw [e] at this
  simp [this]

theorem count_L0 {log : List TimeScale} (hl : ∀ e ∈ log, e ≠ life) (n3 n2 n1 : Nat) (q : TimeScale)
    (hq : q.val < 1) :
    (seg pass n1 (seg environment_state_update n2 (seg environment_sequence n3 log))).count q =
      countWhen (fun pre => decide (field pre environment_sequence = n3) &&
        (decide (field pre environment_state_update = n2) && decide (field pre pass = n1))) q log := by
  rw [← countWhen_true, count_seg1 (seg2_lt (seg3_lt hl n3) n2) n1 q hq,
    count_seg2 (seg3_lt hl n3) n2 q (by omega), count_seg3 hl n3 q (by omega)]
  apply countWhen_congr
  intro pre hp
  have h3 := after_prefix_lt3 hl hp
  have e3 : environment_sequence.val = 3 := rfl
  have e2 : environment_state_update.val = 2 := rfl
  have h2 : ∀ e ∈ after 3 pre, e.val ≤ 2 := by
    intro e he
    have := after_mem he
    have h := h3 e this.1
    omega
  have f2 := field_after' (s := environment_state_update) (c := environment_sequence) (by decide) h3
  have f1 := field_after' (s := pass) (c := environment_sequence) (by decide) h3
  have f1' := field_after' (s := pass) (c := environment_state_update) (by decide) h2
  rw [e3] at f2 f1; rw [e2] at f1'
  simp [f2, f1', f1]

/-- The base scale the code finds. -/
theorem baseScale_spec (q base : TimeScale) (given : TimeScale → Option Int) (hq : q ≠ life)
    (h1 : base = life ∨ ((given base).isSome ∧ q.val < base.val))
    (h2 : ∀ s, (given s).isSome → q.val < s.val → base.val ≤ s.val) :
    Tree.baseScale q (Tree.baseIndices given) = base := by
  have g := fun s => h2 s
  have g1 := g consideration_set_execution
  have g2 := g pass
  have g3 := g environment_state_update
  have g4 := g environment_sequence
  have hsome : ∀ s, ((Tree.baseIndices given) s).isSome = ((given s).isSome || decide (s = life)) := by
    intro s
    unfold Tree.baseIndices
    cases given s <;> simp
    split <;> simp_all
  unfold Tree.baseScale
  simp only [TimeScale.all, List.reverse_cons, List.reverse_nil, List.nil_append,
    List.cons_append, List.foldl_cons, List.foldl_nil, hsome]
  clear hsome g h2
  generalize (given consideration_set_execution).isSome = b0 at *
  generalize hb1 : (given pass).isSome = b1 at *
  generalize hb2 : (given environment_state_update).isSome = b2 at *
  generalize hb3 : (given environment_sequence).isSome = b3 at *
  cases q <;> first | exact absurd rfl hq | skip
  all_goals cases base <;> simp_all [val]
  all_goals (cases b1 <;> cases b2 <;> cases b3 <;> simp_all)

end nested
end GS

namespace GS
open Spec TimeScale

theorem Tree.getTotal_eq (t : Tree) (q : TimeScale) (given : TimeScale → Option Int)
    (base : TimeScale) (ht : t.Scaled) (hsc : t.scale = 4) (hq : q ≠ life)
    (hb : Tree.baseScale q (Tree.baseIndices given) = base) :
    t.getTotalTimesRelative q given =
      match Tree.walk1 base 4 t (Tree.baseIndices given) with
      | .error .indexError => .error .timeScaleError
      | .error e => .error e
      | .ok n => if q.val < n.scale then .ok (n.total q) else .error .keyError := by
  unfold getTotalTimesRelative
  have hq4 : ¬ 4 ≤ q.val := by revert hq; cases q <;> simp [val]
  have hb4 : ¬ 4 < base.val := by have := val_le base; omega
  dsimp only
  rw [hb, hsc, if_neg hq4, if_neg hb4]
  have := Tree.fill_then_walk base 4 t (Tree.baseIndices given) ht
    (by rw [hsc]; exact val_le base) (by omega)
  rw [← this]
  cases hf : Tree.fillWalk base 4 t (Tree.baseIndices given) with
  | error e => cases e <;> rfl
  | ok idx' =>
    dsimp only
    cases hw : Tree.walk base 4 t idx' with
    | error e => cases e <;> rfl
    | ok n => rfl

theorem Tree.ofLog_total (md : TimeScale) (k i : Nat) (log : List TimeScale) (q : TimeScale)
    (h : q.val < k) : (Tree.ofLog md k i log).total q = log.count q := by
  cases k with
  | zero => omega
  | succ k => simp [Tree.ofLog, Tree.total, h]

theorem baseIndices_eq (given : TimeScale → Option Int) (s : TimeScale) (h : s ≠ life) :
    Tree.baseIndices given s = given s := by
  unfold Tree.baseIndices; cases given s <;> simp [h]

/-- What the walk finds, for the tree of a history. -/
theorem Tree.getTotal_ofLog (md : TimeScale) (log : List TimeScale)
    (hl : ∀ e ∈ log, e ≠ life) (q base : TimeScale) (given : TimeScale → Option Int)
    (hq : q.val < base.val) (hb : Tree.baseScale q (Tree.baseIndices given) = base) :
    (∀ idx, Resolved md base given log idx →
      (Tree.ofLog md 4 0 log).getTotalTimesRelative q given =
        .ok (countWhen (inPeriod base idx) q log)) ∧
    ((¬ ∃ idx, Resolved md base given log idx) →
      (Tree.ofLog md 4 0 log).getTotalTimesRelative q given = .error .timeScaleError) := by
  have hqne : q ≠ life := fun e => by
    subst e; have := val_le base; have e : TimeScale.life.val = 4 := rfl; omega
  rw [Tree.getTotal_eq _ q given base (Tree.ofLog_scaled _ _ _ _) (Tree.ofLog_scale _ _ _ _) hqne hb]
  have w3 := Tree.walk1_ofLog md base environment_sequence 3 0 log (Tree.baseIndices given)
  have w2 := fun n l => Tree.walk1_ofLog md base environment_state_update 2 n l (Tree.baseIndices given)
  have w1 := fun n l => Tree.walk1_ofLog md base pass 1 n l (Tree.baseIndices given)
  rw [baseIndices_eq _ _ (by decide)] at w3
  simp only [baseIndices_eq given environment_state_update (by decide)] at w2
  simp only [baseIndices_eq given pass (by decide)] at w1
  have done := fun f n l => Tree.walk1_done md base f n l (Tree.baseIndices given)
  have e3 : ∀ idx : TimeScale → Nat, log.count environment_sequence =
      countWhen (inEnclosing environment_sequence idx) environment_sequence log := by
    intro idx
    rw [← countWhen_true]
    apply countWhen_congr
    intro pre _
    simp [inEnclosing, TimeScale.all, val]
  have e2 : ∀ idx : TimeScale → Nat,
      (seg environment_sequence (idx environment_sequence) log).count environment_state_update =
      countWhen (inEnclosing environment_state_update idx) environment_state_update log := by
    intro idx
    rw [count_L2 hl _ _ (by decide)]
    apply countWhen_congr
    intro pre _
    simp [inEnclosing, TimeScale.all, val]
  have e1 : ∀ idx : TimeScale → Nat,
      (seg environment_state_update (idx environment_state_update)
        (seg environment_sequence (idx environment_sequence) log)).count pass =
      countWhen (inEnclosing pass idx) pass log := by
    intro idx
    rw [count_L1 hl _ _ _ (by decide)]
    apply countWhen_congr
    intro pre _
    simp [inEnclosing, TimeScale.all, val, Bool.and_comm]
  have s3 : ∀ n l, (segs environment_sequence.val l)[n]?.getD [] = seg environment_sequence n l :=
    fun _ _ => rfl
  have s2 : ∀ n l, (segs environment_state_update.val l)[n]?.getD [] =
    seg environment_state_update n l := fun _ _ => rfl
  have s1 : ∀ n l, (segs pass.val l)[n]?.getD [] = seg pass n l := fun _ _ => rfl
  rw [show environment_sequence.val + 1 = 4 from rfl, show (3 + 1 : Nat) = 4 from rfl] at w3
  simp only [s3] at w3
  simp only [show environment_state_update.val + 1 = environment_sequence.val from rfl,
    show (2 + 1 : Nat) = 3 from rfl] at w2
  simp only [show pass.val + 1 = environment_state_update.val from rfl,
    show (1 + 1 : Nat) = 2 from rfl] at w1
  simp only [s2] at w2
  simp only [s1] at w1
  cases base with
  | consideration_set_execution => simp [val] at hq
  | life =>
    have hw : Tree.walk1 life 4 (Tree.ofLog md 4 0 log) (Tree.baseIndices given) =
      .ok (Tree.ofLog md 4 0 log) := done 4 0 log
    rw [hw]
    simp only [Tree.ofLog_scale]
    rw [if_pos (show q.val < 4 from hq), Tree.ofLog_total _ _ _ _ _ (show q.val < 4 from hq)]
    constructor
    · intro idx _
      rw [← countWhen_true]
      refine congrArg Except.ok (countWhen_congr _ _ ?_)
      intro pre _
      simp [inPeriod, TimeScale.all, val]
    · intro h
      refine absurd ⟨fun _ => 0, ?_⟩ h
      intro s hs hne
      exfalso; revert hs hne; cases s <;> simp [val]
  | environment_sequence =>
    rw [w3 (by decide) (by decide)]
    constructor
    · intro idx hr
      have r3 := hr environment_sequence (by decide) (by decide)
      rw [← e3 idx] at r3
      have c3 := (resolveIdx_chooses _ _ _).2 r3.2
      rw [if_pos r3.1, c3]
      simp only [done, Tree.ofLog_scale]
      rw [if_pos hq, Tree.ofLog_total _ _ _ _ _ hq, count_L2 hl _ _ hq]
      congr 1
      apply countWhen_congr
      intro pre _
      simp [inPeriod, TimeScale.all, val]
    · intro h
      by_cases hm : md.val ≤ environment_sequence.val
      · rw [if_pos hm]
        cases hr : resolveIdx (given environment_sequence) (log.count environment_sequence) with
        | none => rfl
        | some n =>
          exfalso; apply h
          refine ⟨fun s => n, ?_⟩
          intro s hs hne
          have : s = environment_sequence := by revert hs hne; cases s <;> simp [val]
          subst this
          exact ⟨hm, by rw [← e3]; exact (resolveIdx_chooses _ _ _).1 hr⟩
      · rw [if_neg hm]
  | environment_state_update =>
    rw [w3 (by decide) (by decide)]
    constructor
    · intro idx hr
      have r3 := hr environment_sequence (by decide) (by decide)
      have r2 := hr environment_state_update (by decide) (by decide)
      rw [← e3 idx] at r3
      rw [← e2 idx] at r2
      have c3 := (resolveIdx_chooses _ _ _).2 r3.2
      have c2 := (resolveIdx_chooses _ _ _).2 r2.2
      rw [if_pos r3.1, c3]
      dsimp only
      rw [w2 _ _ (by decide) (by decide), if_pos r2.1, c2]
      simp only [done, Tree.ofLog_scale]
      rw [if_pos hq, Tree.ofLog_total _ _ _ _ _ hq, count_L1 hl _ _ _ hq]
      congr 1
      apply countWhen_congr
      intro pre _
      simp [inPeriod, TimeScale.all, val, Bool.and_comm]
    · intro h
      by_cases hm : md.val ≤ environment_state_update.val
      · have hm3 : md.val ≤ environment_sequence.val := Nat.le_trans hm (by decide)
        rw [if_pos hm3]
        cases hr : resolveIdx (given environment_sequence) (log.count environment_sequence) with
        | none => rfl
        | some n3 =>
          dsimp only
          rw [w2 _ _ (by decide) (by decide), if_pos hm]
          cases hr2 : resolveIdx (given environment_state_update)
              ((seg environment_sequence n3 log).count environment_state_update) with
          | none => rfl
          | some n2 =>
            exfalso; apply h
            refine ⟨fun s => if s = environment_sequence then n3 else n2, ?_⟩
            intro s hs hne
            have : s = environment_sequence ∨ s = environment_state_update := by
              revert hs hne; cases s <;> simp [val]
            rcases this with rfl | rfl
            · exact ⟨hm3, by rw [← e3]; exact (resolveIdx_chooses _ _ _).1 hr⟩
            · exact ⟨hm, by rw [← e2]; exact (resolveIdx_chooses _ _ _).1 hr2⟩
      · by_cases hm3 : md.val ≤ environment_sequence.val
        · rw [if_pos hm3]
          cases hr : resolveIdx (given environment_sequence) (log.count environment_sequence) with
          | none => rfl
          | some n3 => dsimp only; rw [w2 _ _ (by decide) (by decide), if_neg hm]
        · rw [if_neg hm3]
  | pass =>
    rw [w3 (by decide) (by decide)]
    constructor
    · intro idx hr
      have r3 := hr environment_sequence (by decide) (by decide)
      have r2 := hr environment_state_update (by decide) (by decide)
      have r1 := hr pass (by decide) (by decide)
      rw [← e3 idx] at r3
      rw [← e2 idx] at r2
      rw [← e1 idx] at r1
      have c3 := (resolveIdx_chooses _ _ _).2 r3.2
      have c2 := (resolveIdx_chooses _ _ _).2 r2.2
      have c1 := (resolveIdx_chooses _ _ _).2 r1.2
      rw [if_pos r3.1, c3]
      dsimp only
      rw [w2 _ _ (by decide) (by decide), if_pos r2.1, c2]
      dsimp only
      rw [w1 _ _ (by decide) (by decide), if_pos r1.1, c1]
      simp only [done, Tree.ofLog_scale]
      rw [if_pos hq, Tree.ofLog_total _ _ _ _ _ hq, count_L0 hl _ _ _ _ hq]
      congr 1
      apply countWhen_congr
      intro pre _
      simp [inPeriod, TimeScale.all, val]
      ac_rfl
    · intro h
      by_cases hm3 : md.val ≤ environment_sequence.val
      · rw [if_pos hm3]
        cases hr : resolveIdx (given environment_sequence) (log.count environment_sequence) with
        | none => rfl
        | some n3 =>
          dsimp only
          rw [w2 _ _ (by decide) (by decide)]
          by_cases hm2 : md.val ≤ environment_state_update.val
          · rw [if_pos hm2]
            cases hr2 : resolveIdx (given environment_state_update)
                ((seg environment_sequence n3 log).count environment_state_update) with
            | none => rfl
            | some n2 =>
              dsimp only
              rw [w1 _ _ (by decide) (by decide)]
              by_cases hm1 : md.val ≤ pass.val
              · rw [if_pos hm1]
                cases hr1 : resolveIdx (given pass)
                    ((seg environment_state_update n2 (seg environment_sequence n3 log)).count pass) with
                | none => rfl
                | some n1 =>
                  exfalso; apply h
                  refine ⟨fun s => if s = environment_sequence then n3
                    else if s = environment_state_update then n2 else n1, ?_⟩
                  intro s hs hne
                  have : s = environment_sequence ∨ s = environment_state_update ∨ s = pass := by
                    revert hs hne; cases s <;> simp [val]
                  rcases this with rfl | rfl | rfl
                  · exact ⟨hm3, by rw [← e3]; exact (resolveIdx_chooses _ _ _).1 hr⟩
                  · exact ⟨hm2, by rw [← e2]; exact (resolveIdx_chooses _ _ _).1 hr2⟩
                  · exact ⟨hm1, by rw [← e1]; exact (resolveIdx_chooses _ _ _).1 hr1⟩
              · rw [if_neg hm1]
          · rw [if_neg hm2]
      · rw [if_neg hm3]

/-- The tree after a history. -/
theorem Tree.incrs_ofLog (md : TimeScale) (hmd : 1 ≤ md.val) (log : List TimeScale) :
    (∀ e ∈ log, e ≠ life) →
    log.foldlM (fun t ts => Tree.incr md ts t) (Tree.ofLog md 4 0 []) = .ok (Tree.ofLog md 4 0 log) := by
  induction log using snocInd with
  | h0 => intro _; rfl
  | h1 l x ih =>
    intro h
    rw [List.foldlM_append, ih (fun e he => h e (by simp [he]))]
    have hx : x.val < 3 + 1 := by
      have := h x (by simp); revert this; cases x <;> simp [val]
    have hi := Tree.incr_ofLog md hmd x 3 0 l hx
    simp only [List.foldlM_cons, List.foldlM_nil, bind, Except.bind]
    rw [hi]
    rfl

/-- The clock after a history. -/
theorem Clock.incrs_eq (log : List TimeScale) :
    (∀ e ∈ log, e ≠ life) →
    ∃ p, log.foldlM Clock.incr Clock.new =
      .ok { tree := Tree.ofLog Clock.maxDepth 4 0 log, time := Time.zero.incrs log,
            previous_time := p } := by
  induction log using snocInd with
  | h0 =>
    intro _
    have h := Clock.tree_new
    rw [Tree.new_eq_ofLog Clock.maxDepth (by decide)] at h
    injection h with h
    exact ⟨none, by rw [h]; rfl⟩
  | h1 l x ih =>
    intro h
    obtain ⟨p, hp⟩ := ih (fun e he => h e (by simp [he]))
    have hx : x.val < 3 + 1 := by
      have := h x (by simp); revert this; cases x <;> simp [val]
    refine ⟨some (Time.zero.incrs l), ?_⟩
    rw [List.foldlM_append, hp]
    have hi := Tree.incr_ofLog Clock.maxDepth (by decide) x 3 0 l hx
    simp only [List.foldlM_cons, List.foldlM_nil, bind, Except.bind, Clock.incr]
    rw [hi]
    simp [Time.incrs, List.foldl_append, pure, Except.pure]

end GS

import Verif.Part
import Verif.Quota
/-!
# Lemmas: choosing sets, seen from a part of the scheduler
-/

set_option linter.unusedSectionVars false

namespace GS
open Spec TimeScale
variable {α κ W : Type _} [DecidableEq α] [DecidableEq κ]
variable {X : α → Bool} {id : Option κ} {s s' s1 t t' t1 : Sys α κ W}
variable {a : RunArgs α κ W} {abs : Bool} {e e' e1 e1' ns ns' : List α} {n : α}

mutual
theorem samePart_symm {own own' : Nat → Option α} : ∀ c c' : Cond α κ W,
    SamePart X own own' c c' → SamePart X own' own c' c
  | .leaf o k, .leaf o' k', hk => by
    obtain ⟨rfl, h1, rfl | ⟨h2, n, h3, h4⟩⟩ := hk
    · exact ⟨rfl, h1, .inl rfl⟩
    · exact ⟨rfl, h1, .inr ⟨h2.symm, n, h2.trans h3, h4⟩⟩
  | .all o cs, .all o' cs', hk => sameParts_symm cs cs' hk
  | .any o cs, .any o' cs', hk => sameParts_symm cs cs' hk
  | .not o c, .not o' c', hk => samePart_symm c c' hk
  | .whileNot o f, .whileNot o' f', hk => ⟨hk.1.symm, hk.1 ▸ hk.2.1, hk.2.2.symm⟩
  | .nwhen .., _, hk => by simp [SamePart] at hk
  | .whileNot .., .nwhen .., hk => by simp [SamePart] at hk
  | .whileNot .., .leaf .., hk => by simp [SamePart] at hk
  | .whileNot .., .all .., hk => by simp [SamePart] at hk
  | .whileNot .., .any .., hk => by simp [SamePart] at hk
  | .whileNot .., .not .., hk => by simp [SamePart] at hk
  | .leaf .., .nwhen .., hk => by simp [SamePart] at hk
  | .leaf .., .whileNot .., hk => by simp [SamePart] at hk
  | .leaf .., .all .., hk => by simp [SamePart] at hk
  | .leaf .., .any .., hk => by simp [SamePart] at hk
  | .leaf .., .not .., hk => by simp [SamePart] at hk
  | .all .., .nwhen .., hk => by simp [SamePart] at hk
  | .all .., .whileNot .., hk => by simp [SamePart] at hk
  | .all .., .leaf .., hk => by simp [SamePart] at hk
  | .all .., .any .., hk => by simp [SamePart] at hk
  | .all .., .not .., hk => by simp [SamePart] at hk
  | .any .., .nwhen .., hk => by simp [SamePart] at hk
  | .any .., .whileNot .., hk => by simp [SamePart] at hk
  | .any .., .leaf .., hk => by simp [SamePart] at hk
  | .any .., .all .., hk => by simp [SamePart] at hk
  | .any .., .not .., hk => by simp [SamePart] at hk
  | .not .., .nwhen .., hk => by simp [SamePart] at hk
  | .not .., .whileNot .., hk => by simp [SamePart] at hk
  | .not .., .leaf .., hk => by simp [SamePart] at hk
  | .not .., .all .., hk => by simp [SamePart] at hk
  | .not .., .any .., hk => by simp [SamePart] at hk
theorem sameParts_symm {own own' : Nat → Option α} : ∀ cs cs' : List (Cond α κ W),
    SameParts X own own' cs cs' → SameParts X own' own cs' cs
  | [], [], _ => trivial
  | [], _ :: _, hk => by simp [SameParts] at hk
  | _ :: _, [], hk => by simp [SameParts] at hk
  | c :: cs, c' :: cs', hk => by
    simp only [SameParts] at hk ⊢
    exact ⟨samePart_symm c c' hk.1, sameParts_symm cs cs' hk.2⟩
end

theorem Spec.PartRule.symm {c c' : Cond α κ W} (h : PartRule X id s t n c c') :
    PartRule X id t s n c' c := by
  rcases h with h | ⟨o, d, o', d', k, h1, h2, h3, h4, h5, h6⟩
  · exact .inl (samePart_symm _ _ h)
  · exact .inr ⟨o', d', o, d, k, h2, h1, samePart_symm _ _ h3, h5, h4, h6.symm⟩

theorem Spec.PartAgrees.symm (h : PartAgrees X id s t) : PartAgrees X id t s where
  queue i := (h.queue i).symm
  nodes n hn := (h.nodes n hn).symm
  conds n hn := by
    obtain ⟨c, c', h1, h2, h3⟩ := h.conds n hn
    exact ⟨c', c, h2, h1, h3.symm⟩
  total := by
    obtain ⟨f, f', h1, h2, h3⟩ := h.total
    exact ⟨f', f, h2, h1, fun ts n hn => (h3 ts n hn).symm⟩
  useable := by
    obtain ⟨f, f', h1, h2, h3⟩ := h.useable
    exact ⟨f', f, h2, h1, fun n m hn hm => (h3 n m hn hm).symm⟩
  clock := by
    obtain ⟨l, l', h1, h2, h3⟩ := h.clock
    exact ⟨l', l, h2, h1, h3.symm⟩

theorem Spec.SameWorld.symm {w w' : World α κ W} (h : SameWorld X w w') : SameWorld X w' w :=
  ⟨fun n i hn => (h.finished n i hn).symm, fun n p hn => (h.attr n p hn).symm,
    fun g n p i hn => (h.getter g n p i hn).symm⟩

theorem Spec.SameWorld.trans {w w' w'' : World α κ W} (h : SameWorld X w w') (k : SameWorld X w' w'') :
    SameWorld X w w'' :=
  ⟨fun n i hn => (k.finished n i hn).trans (h.finished n i hn),
    fun n p hn => (k.attr n p hn).trans (h.attr n p hn),
    fun g n p i hn => (k.getter g n p i hn).trans (h.getter g n p i hn)⟩

/-- The `NWhen` objects of the part have been satisfied as often in `st` as in `s`. -/
def SameCounts (X : α → Bool) (id : Option κ) (s : Sys α κ W) (st : Store α κ) : Prop :=
  ∀ n o d k, X n = true → Dict.get? s.conds n = some (.nwhen o d k) → st.sat o id = s.store.sat o id

/-- An `NWhen` object of the part is used for one node only. -/
theorem Spec.PartAgrees.only (h : PartAgrees X id s t) (hn : X n = true) {o : Nat} {d : Cond α κ W}
    {k : Int} (hc : Dict.get? s.conds n = some (.nwhen o d k)) : OnlyFor n o d k s := by
  obtain ⟨c, c', h1, _, h3⟩ := h.conds n hn
  rw [hc] at h1
  cases h1
  rcases h3 with h3 | ⟨o1, d1, o', d', k', e1, _, _, h4, _, _⟩
  · cases c' <;> simp [SamePart] at h3
  · cases e1; exact h4

/-- Evaluating a condition that is not satisfied leaves the counters of the part alone. -/
theorem Spec.PartAgrees.counts_false (h : PartAgrees X id s t) {m : α} {c : Cond α κ W} {st : Store α κ}
    (hc : Dict.get? s.conds m = some c) (he : eval s.toView id c s.store = (.ok false, st)) :
    SameCounts X id s st := by
  intro n o d k hn hd
  have ho := h.only hn hd
  by_cases hm : m = n
  · subst hm
    rw [hd] at hc
    cases hc
    have := nwhen_sat (n := k) s.toView id ho.inner s.store id
    rw [he] at this
    simpa using this
  · have := Spec.Without.eval s.toView id c s.store (ho.others m c hm hc) id
    rw [he] at this
    exact this

/-- Evaluating the condition of another node, too. -/
theorem Spec.PartAgrees.counts_other (h : PartAgrees X id s t) {m : α} {c : Cond α κ W} {st : Store α κ} {r}
    (hc : Dict.get? s.conds m = some c) (he : eval s.toView id c s.store = (r, st)) {o : Nat}
    {d : Cond α κ W} {k : Int} (hn : X n = true) (hm : m ≠ n)
    (hd : Dict.get? s.conds n = some (.nwhen o d k)) : st.sat o id = s.store.sat o id := by
  have := Spec.Without.eval s.toView id c s.store ((h.only hn hd).others m c hm hc) id
  rw [he] at this
  exact this

theorem Spec.PartRule.left {c c' : Cond α κ W} (h : PartRule X id s t n c c')
    (hd : Dict.get? s.conds n = some c) (hn : X n = true) (hc : s1.conds = s.conds)
    (ho : s1.store.owner = s.store.owner) (hf : s1.store.fresh = s.store.fresh)
    (hs : SameCounts X id s s1.store) : PartRule X id s1 t n c c' := by
  rcases h with h | ⟨o, d, o', d', k, rfl, h2, h3, h4, h5, h6⟩
  · exact .inl (by rw [ho]; exact h)
  · refine .inr ⟨o, d, o', d', k, rfl, h2, by rw [ho]; exact h3, ?_, h5, ?_⟩
    · exact ⟨by rw [hf]; exact h4.made, by rw [hc]; exact h4.cond, h4.inner, by rw [hc]; exact h4.others⟩
    · rw [hs n o d k hn hd]; exact h6

/-- Changes on one side that do not concern the part. -/
theorem Spec.PartAgrees.left (h : PartAgrees X id s t) (hq : s1.queue = s.queue)
    (hn : s1.nodes = s.nodes) (hc : s1.conds = s.conds) (ho : s1.store.owner = s.store.owner)
    (hf : s1.store.fresh = s.store.fresh) (hs : SameCounts X id s s1.store)
    (ht : ∀ f, Dict.get? s.countsTotal id = some f → ∃ f1, Dict.get? s1.countsTotal id = some f1 ∧
      ∀ ts n, X n = true → f1 ts n = f ts n)
    (hu : ∀ f, Dict.get? s.countsUseable id = some f → ∃ f1, Dict.get? s1.countsUseable id = some f1 ∧
      ∀ n m, X n = true → X m = true → f1 n m = f n m)
    (hcl : s1.clock id = s.clock id) : PartAgrees X id s1 t where
  queue i := by rw [hq]; exact h.queue i
  nodes := by rw [hn]; exact h.nodes
  conds n hn := by
    obtain ⟨c, c', h1, h2, h3⟩ := h.conds n hn
    exact ⟨c, c', by rw [hc]; exact h1, h2, h3.left h1 hn hc ho hf hs⟩
  total := by
    obtain ⟨f, f', h1, h2, h3⟩ := h.total
    obtain ⟨f1, k1, k2⟩ := ht f h1
    exact ⟨f1, f', k1, h2, fun ts n hx => (h3 ts n hx).trans (k2 ts n hx).symm⟩
  useable := by
    obtain ⟨f, f', h1, h2, h3⟩ := h.useable
    obtain ⟨f1, k1, k2⟩ := hu f h1
    exact ⟨f1, f', k1, h2, fun n m hx hy => (h3 n m hx hy).trans (k2 n m hx hy).symm⟩
  clock := by rw [hcl]; exact h.clock

theorem Spec.PartAgrees.putStore (h : PartAgrees X id s t) {st : Store α κ}
    (ho : st.owner = s.store.owner) (hf : st.fresh = s.store.fresh) (hs : SameCounts X id s st) :
    PartAgrees X id (s.putStore st) t :=
  h.left rfl rfl rfl ho hf hs (fun f hf => ⟨f, hf, fun _ _ _ => rfl⟩)
    (fun f hf => ⟨f, hf, fun _ _ _ _ => rfl⟩) rfl

/-- One node is considered: `e` is the set before, `e'` the set afterwards. -/
inductive Considers (id : Option κ) (s : Sys α κ W) (e : List α) (n : α) : Sys α κ W → List α → Prop
  | skip : n ∈ e → Considers id s e n s e
  | reject {c st} : n ∉ e → Dict.get? s.conds n = some c →
      eval s.toView id c s.store = (.ok false, st) → Considers id s e n (s.putStore st) e
  | add {c st f u} : n ∉ e → Dict.get? s.conds n = some c →
      eval s.toView id c s.store = (.ok true, st) → Dict.get? s.countsTotal id = some f →
      Dict.get? s.countsUseable id = some u →
      Considers id s e n (((s.putStore st).putTotal id (bumpF n f)).putUseable id (bumpU n u)) (e ++ [n])

/-- The nodes of a list are considered one after the other. -/
inductive Sweep (id : Option κ) : Sys α κ W → List α → List α → Sys α κ W → List α → Prop
  | nil {s : Sys α κ W} {e : List α} : Sweep id s [] e s e
  | cons {s s1 s' : Sys α κ W} {n : α} {ns e e1 e' : List α} : Considers id s e n s1 e1 → Sweep id s1 ns e1 s' e' →
      Sweep id s (n :: ns) e s' e'

/-- The nodes of the set are considered again until nothing is added. -/
inductive Loop (id : Option κ) (layer : List α) : Sys α κ W → List α → Sys α κ W → List α → Prop
  | last {s s' : Sys α κ W} {e : List α} : Sweep id s layer e s' e → Loop id layer s e s' e
  | more {s s1 s' : Sys α κ W} {e e1 e' : List α} : Sweep id s layer e s1 e1 → e1 ≠ e → Loop id layer s1 e1 s' e' →
      Loop id layer s e s' e'

theorem Considers.world (h : Considers id s e n s1 e1) : s1.world = s.world := by cases h <;> rfl

theorem Considers.outside (h : Considers id s e n s1 e1) (hn : X n = false)
    (hp : PartAgrees X id s t) : PartAgrees X id s1 t ∧ e1.filter X = e.filter X := by
  cases h with
  | skip h1 => exact ⟨hp, rfl⟩
  | reject h1 h2 h3 =>
    exact ⟨hp.putStore (eval_store' h3).owner (eval_store' h3).fresh (hp.counts_false h2 h3), rfl⟩
  | @add c st f u h1 h2 h3 h4 h5 =>
    refine ⟨hp.left rfl rfl rfl (eval_store' h3).owner (eval_store' h3).fresh ?_ ?_ ?_ rfl, ?_⟩
    · intro m o d k hm hd
      exact hp.counts_other h2 h3 hm (by rintro rfl; rw [hn] at hm; cases hm) hd
    · intro f' hf'
      rw [h4] at hf'; cases hf'
      refine ⟨bumpF n f, Dict.get?_set_self .., fun ts m hm => ?_⟩
      have : m ≠ n := by rintro rfl; rw [hn] at hm; cases hm
      simp [bumpF, this]
    · intro u' hu'
      rw [h5] at hu'; cases hu'
      refine ⟨bumpU n u, Dict.get?_set_self .., fun m m' hm hm' => ?_⟩
      have k1 : m ≠ n := by rintro rfl; rw [hn] at hm; cases hm
      have k2 : m' ≠ n := by rintro rfl; rw [hn] at hm'; cases hm'
      simp [bumpU, k1, k2]
    · simp [List.filter_append, hn]

theorem mem_of_filter (h : e'.filter X = e.filter X) (hn : X n = true) : n ∈ e' ↔ n ∈ e := by
  have : n ∈ e'.filter X ↔ n ∈ e.filter X := by rw [h]
  simpa [List.mem_filter, hn] using this

theorem nwhenResult_fst (o : Nat) (r : EvalResult α κ) : (nwhenResult o id r).1 = r.1 := by
  obtain ⟨e | b, st⟩ := r
  · rfl
  · cases b <;> rfl

theorem eval_rule (h : PartAgrees X id s t) (hw : SameWorld X s.world t.world) {c c' : Cond α κ W}
    (hr : PartRule X id s t n c c') :
    (eval t.toView id c' t.store).1 = (eval s.toView id c s.store).1 := by
  rcases hr with hr | ⟨o, d, o', d', k, rfl, rfl, h3, _, _, h6⟩
  · exact eval_part h hw c c' s.store t.store hr
  · simp only [eval, h6]
    split
    · rw [nwhenResult_fst, nwhenResult_fst]
      exact eval_part h hw d d' s.store t.store h3
    · rfl

theorem Considers.both (h : Considers id s e n s1 e1) (h' : Considers id t e' n t1 e1')
    (hn : X n = true) (hp : PartAgrees X id s t) (hw : SameWorld X s.world t.world)
    (he : e'.filter X = e.filter X) : PartAgrees X id s1 t1 ∧ e1'.filter X = e1.filter X := by
  have hm := mem_of_filter he hn
  obtain ⟨c, c', k1, k2, k3⟩ := hp.conds n hn
  have hev := eval_rule hp hw k3
  cases h with
  | skip h1 =>
    cases h' with
    | skip h1' => exact ⟨hp, he⟩
    | reject h1' => exact absurd (hm.2 h1) h1'
    | add h1' => exact absurd (hm.2 h1) h1'
  | reject h1 h2 h3 =>
    rw [k1] at h2; cases h2
    rw [h3] at hev
    cases h' with
    | skip h1' => exact absurd (hm.1 h1') h1
    | reject h1' h2' h3' =>
      have g := (hp.putStore (eval_store' h3).owner (eval_store' h3).fresh (hp.counts_false k1 h3)).symm
      exact ⟨(g.putStore (eval_store' h3').owner (eval_store' h3').fresh (g.counts_false h2' h3')).symm, he⟩
    | add h1' h2' h3' =>
      rw [k2] at h2'; cases h2'
      rw [h3'] at hev; cases hev
  | @add _ st f u h1 h2 h3 h4 h5 =>
    rw [k1] at h2; cases h2
    rw [h3] at hev
    cases h' with
    | skip h1' => exact absurd (hm.1 h1') h1
    | reject h1' h2' h3' =>
      rw [k2] at h2'; cases h2'
      rw [h3'] at hev; cases hev
    | @add _ st' f' u' h1' h2' h3' h4' h5' =>
      refine ⟨⟨hp.queue, hp.nodes, ?_, ?_, ?_, hp.clock⟩, ?_⟩
      · intro m hm
        obtain ⟨d, d', g1, g2, g3⟩ := hp.conds m hm
        refine ⟨d, d', g1, g2, ?_⟩
        rcases g3 with g3 | ⟨o, b, o', b', k, rfl, rfl, q3, q4, q5, q6⟩
        · left
          show SamePart X st.owner st'.owner d d'
          rw [(eval_store' h3).owner, (eval_store' h3').owner]; exact g3
        · refine .inr ⟨o, b, o', b', k, rfl, rfl, ?_, ?_, ?_, ?_⟩
          · show SamePart X st.owner st'.owner b b'
            rw [(eval_store' h3).owner, (eval_store' h3').owner]; exact q3
          · exact ⟨by show o < st.fresh; rw [(eval_store' h3).fresh]; exact q4.made, q4.cond, q4.inner,
              q4.others⟩
          · exact ⟨by show o' < st'.fresh; rw [(eval_store' h3').fresh]; exact q5.made, q5.cond, q5.inner,
              q5.others⟩
          · show st'.sat o' id = st.sat o id
            by_cases hmn : n = m
            · subst hmn
              rw [k1] at g1; cases g1
              rw [k2] at g2; cases g2
              have e1 := nwhen_sat (n := k) s.toView id q4.inner s.store id
              have e2 := nwhen_sat (n := k) t.toView id q5.inner t.store id
              rw [h3] at e1
              rw [k2] at h2'; cases h2'
              rw [h3'] at e2
              simp at e1 e2
              rw [e1, e2, q6]
            · rw [hp.counts_other k1 h3 hm hmn g1, hp.symm.counts_other h2' h3' hm hmn g2]
              exact q6
      · obtain ⟨g, g', l1, l2, l3⟩ := hp.total
        rw [h4] at l1; cases l1
        rw [h4'] at l2; cases l2
        refine ⟨bumpF n f, bumpF n f', Dict.get?_set_self .., Dict.get?_set_self .., fun ts m hm => ?_⟩
        simp [bumpF, l3 ts m hm]
      · obtain ⟨g, g', l1, l2, l3⟩ := hp.useable
        rw [h5] at l1; cases l1
        rw [h5'] at l2; cases l2
        refine ⟨bumpU n u, bumpU n u', Dict.get?_set_self .., Dict.get?_set_self ..,
          fun m m' hm hm' => ?_⟩
        simp [bumpU, l3 m m' hm hm']
      · rw [List.filter_append, List.filter_append, he]

theorem Sweep.world (h : Sweep id s ns e s' e') : s'.world = s.world := by
  induction h with
  | nil => rfl
  | cons h _ ih => exact ih.trans h.world

theorem Loop.world (h : Loop id ns s e s' e') : s'.world = s.world := by
  induction h with
  | last h => exact h.world
  | more h _ _ ih => exact ih.trans h.world

theorem Sweep.conds (h : Sweep id s ns e s' e') : s'.conds = s.conds := by
  induction h with
  | nil => rfl
  | cons h _ ih => exact ih.trans (by cases h <;> rfl)

theorem Loop.conds (h : Loop id ns s e s' e') : s'.conds = s.conds := by
  induction h with
  | last h => exact h.conds
  | more h _ _ ih => exact ih.trans h.conds

/-- Nodes outside the part. -/
theorem Sweep.outside (h : Sweep id s ns e s' e') (hn : ns.filter X = [])
    (hp : PartAgrees X id s t) : PartAgrees X id s' t ∧ e'.filter X = e.filter X := by
  induction h with
  | nil => exact ⟨hp, rfl⟩
  | @cons s s1 s' n ns e e1 e' hc _ ih =>
    have hx : X n = false := by
      cases hx : X n with
      | false => rfl
      | true => rw [List.filter_cons_of_pos hx] at hn; cases hn
    rw [List.filter_cons_of_neg (by simp [hx])] at hn
    obtain ⟨k1, k2⟩ := hc.outside hx hp
    obtain ⟨k3, k4⟩ := ih hn k1
    exact ⟨k3, k4.trans k2⟩

theorem Sweep.both (m : Nat) : ∀ {s t : Sys α κ W} {ns ns' e e' s' t' e1 e1'},
    ns.length + ns'.length ≤ m →
    Sweep id s ns e s' e1 → Sweep id t ns' e' t' e1' → ns'.filter X = ns.filter X →
    PartAgrees X id s t → SameWorld X s.world t.world → e'.filter X = e.filter X →
    PartAgrees X id s' t' ∧ e1'.filter X = e1.filter X := by
  induction m with
  | zero =>
    intro s t ns ns' e e' s' t' e1 e1' hl h h' hns hp hw he
    cases ns <;> cases ns' <;> simp at hl
    cases h; cases h'
    exact ⟨hp, he⟩
  | succ m ih =>
    intro s t ns ns' e e' s' t' e1 e1' hl h h' hns hp hw he
    cases h with
    | nil =>
      obtain ⟨k1, k2⟩ := h'.outside (X := X) hns hp.symm
      exact ⟨k1.symm, k2.trans he⟩
    | @cons _ s1 _ n ns _ x1 _ hc hs =>
      cases hx : X n with
      | false =>
        obtain ⟨k1, k2⟩ := hc.outside hx hp
        rw [List.filter_cons_of_neg (by simp [hx])] at hns
        exact ih (by simp at hl; omega) hs h' hns k1 (by rw [hc.world]; exact hw) (he.trans k2.symm)
      | true =>
        rw [List.filter_cons_of_pos hx] at hns
        cases h' with
        | nil => cases hns
        | @cons _ t1 _ n' ns' _ x1' _ hc' hs' =>
          cases hx' : X n' with
          | false =>
            obtain ⟨k1, k2⟩ := hc'.outside hx' hp.symm
            rw [List.filter_cons_of_neg (by simp [hx'])] at hns
            exact ih (by simp at hl ⊢; omega) (.cons hc hs) hs'
              (by rw [List.filter_cons_of_pos hx]; exact hns) k1.symm
              (by rw [hc'.world]; exact hw) (k2.trans he)
          | true =>
            rw [List.filter_cons_of_pos hx'] at hns
            injection hns with hn hns
            subst hn
            obtain ⟨k1, k2⟩ := hc.both hc' hx hp hw he
            exact ih (by simp at hl; omega) hs hs' hns k1 (by rw [hc.world, hc'.world]; exact hw) k2

theorem Sweep.grow (h : Sweep id s ns e s' e') :
    e.length < e'.length ∨ (e' = e ∧ ∃ st, s' = s.putStore st ∧ st.owner = s.store.owner) := by
  induction h with
  | nil => exact .inr ⟨rfl, _, rfl, rfl⟩
  | @cons s s1 s' n ns e e1 e' hc _ ih =>
    cases hc with
    | skip h1 => exact ih
    | @reject c st h1 h2 h3 =>
      rcases ih with ih | ⟨rfl, st', rfl, h5⟩
      · exact .inl ih
      · exact .inr ⟨rfl, st', rfl, h5.trans (eval_store' h3).owner⟩
    | add h1 h2 h3 h4 h5 =>
      left
      rcases ih with ih | ⟨rfl, _⟩
      · simp at ih; omega
      · simp

/-- A round that adds nothing leaves the counters of the part alone. -/
theorem Sweep.still (h : Sweep id s ns e s' e') (he : e' = e) : ∀ {t : Sys α κ W}, PartAgrees X id s t →
    ∃ st, s' = s.putStore st ∧ st.owner = s.store.owner ∧ st.fresh = s.store.fresh ∧
      SameCounts X id s st := by
  induction h with
  | nil => exact fun _ => ⟨_, rfl, rfl, rfl, fun _ _ _ _ _ _ => rfl⟩
  | @cons s s1 s' n ns e e1 e' hc hs ih =>
    intro t hp
    cases hc with
    | skip h1 => exact ih he hp
    | @reject c st h1 h2 h3 =>
      have g1 := hp.counts_false h2 h3
      obtain ⟨st', rfl, k1, k2, k3⟩ := ih he (hp.putStore (eval_store' h3).owner (eval_store' h3).fresh g1)
      exact ⟨st', rfl, k1.trans (eval_store' h3).owner, k2.trans (eval_store' h3).fresh,
        fun n o d k hn hd => (k3 n o d k hn hd).trans (g1 n o d k hn hd)⟩
    | add h1 h2 h3 h4 h5 =>
      have : e.length < e'.length := by
        rcases hs.grow with g | ⟨rfl, _⟩
        · simp at g; omega
        · simp
      rw [he] at this
      exact absurd this (Nat.lt_irrefl _)

/-- The part when one of the two loops has come to its end. -/
theorem Loop.idle {layer layer' : List α} (hl : layer'.filter X = layer.filter X)
    (h : Sweep id s layer e s' e) (h' : Loop id layer' t e' t' e1')
    (hp : PartAgrees X id s t) (hw : SameWorld X s.world t.world) (he : e'.filter X = e.filter X) :
    PartAgrees X id s' t' ∧ e1'.filter X = e.filter X := by
  obtain ⟨st, rfl, ho, hf, hs⟩ := h.still rfl hp
  induction h' with
  | last h1 => exact Sweep.both _ (Nat.le_refl _) h h1 hl hp hw he
  | @more t t1 t' x x1 x' h1 h2 h3 ih =>
    obtain ⟨k1, k2⟩ := Sweep.both _ (Nat.le_refl _) h h1 hl hp hw he
    have k3 : PartAgrees X id s t1 := by
      have := k1.putStore (st := s.store) ho.symm hf.symm fun n o d k hn hd => (hs n o d k hn hd).symm
      exact this
    exact ih k3 (by rw [h1.world]; exact hw) k2

/-- The part after the choice of a set. -/
theorem Loop.both {layer layer' : List α} (hl : layer'.filter X = layer.filter X)
    (h : Loop id layer s e s' e1) : ∀ {t e' t' e1'}, Loop id layer' t e' t' e1' →
    PartAgrees X id s t → SameWorld X s.world t.world → e'.filter X = e.filter X →
    PartAgrees X id s' t' ∧ e1'.filter X = e1.filter X := by
  induction h with
  | last h =>
    intro t e' t' e1' h' hp hw he
    exact Loop.idle hl h h' hp hw he
  | @more s s1 s' x x1 x' h1 h2 h3 ih =>
    intro t e' t' e1' h' hp hw he
    cases h' with
    | last g =>
      obtain ⟨k1, k2⟩ := Loop.idle hl.symm g (.more h1 h2 h3) hp.symm hw.symm he.symm
      exact ⟨k1.symm, k2.symm⟩
    | @more _ t1 _ _ y1 _ g1 g2 g3 =>
      obtain ⟨k1, k2⟩ := Sweep.both _ (Nat.le_refl _) h1 g1 hl hp hw he
      exact ih g3 k1 (by rw [h1.world, g1.world]; exact hw) k2

/-- A choice without nodes of the part. -/
theorem Loop.outside {layer : List α} (hl : layer.filter X = []) (h : Loop id layer s e s' e1)
    (hp : PartAgrees X id s t) : PartAgrees X id s' t ∧ e1.filter X = e.filter X := by
  induction h with
  | last h => exact h.outside hl hp
  | more h _ _ ih =>
    obtain ⟨k1, k2⟩ := h.outside hl hp
    obtain ⟨k3, k4⟩ := ih k1
    exact ⟨k3, k4.trans k2⟩

end GS

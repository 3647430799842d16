import Verif.PartMach
/-!
# Lemmas: a part of the graph that contains the senders of its nodes
-/

set_option linter.unusedSectionVars false

namespace GS
open Spec
variable {α κ W : Type _} [DecidableEq α] [DecidableEq κ]
variable {X : α → Bool} {s t s1 t1 : Sys α κ W} {a a' : RunArgs α κ W} {abs abs' : Bool}

/-! ## Places in the queue -/

/-- The entries of the part. -/
def restrict (X : α → Bool) (g : Graph α) : Graph α := g.filter fun p => X p.1

/-- The part contains the senders of its nodes. -/
def ClosedIn (X : α → Bool) (g : Graph α) : Prop := ∀ p ∈ g, X p.1 = true → ∀ d ∈ p.2, X d = true

theorem ordered_restrict (g : Graph α) :
    (Toposort.ordered g).filter X = Toposort.ordered (restrict X g) := by
  unfold Toposort.ordered restrict
  rw [List.filter_map, List.filter_filter, List.filter_filter]
  congr 1
  apply List.filter_congr
  intro p _
  exact Bool.and_comm _ _

theorem mem_ordered_restrict (g : Graph α) {n : α} (hn : X n = true) :
    n ∈ Toposort.ordered (restrict X g) ↔ n ∈ Toposort.ordered g := by
  rw [← ordered_restrict, List.mem_filter]; simp [hn]

theorem remove_restrict {g : Graph α} (hg : ClosedIn X g) :
    restrict X (Toposort.remove (Toposort.ordered g) g) =
      Toposort.remove (Toposort.ordered (restrict X g)) (restrict X g) := by
  unfold Toposort.remove
  conv => lhs; unfold restrict
  conv => rhs; arg 2; unfold restrict
  rw [List.filter_map, List.filter_filter, List.filter_filter]
  have e : (g.filter fun p => ((fun p : α × List α => X p.1) ∘ fun p =>
        (p.1, p.2.filter fun e => decide (e ∉ Toposort.ordered g))) p &&
        decide (p.1 ∉ Toposort.ordered g)) =
      g.filter fun p => decide (p.1 ∉ Toposort.ordered (restrict X g)) && X p.1 := by
    apply List.filter_congr
    intro p _
    by_cases hx : X p.1 = true
    · have := mem_ordered_restrict g hx
      simp [hx, this]
    · simp [hx]
  rw [e]
  apply List.map_congr_left
  intro p hp
  rw [List.mem_filter, Bool.and_eq_true] at hp
  congr 1
  apply List.filter_congr
  intro d hd
  have := mem_ordered_restrict g (hg p hp.1 hp.2.2 d hd)
  simp [this]

theorem ClosedIn.remove {g : Graph α} (hg : ClosedIn X g) (o : List α) :
    ClosedIn X (Toposort.remove o g) := by
  intro p hp hx d hd
  obtain ⟨q, hq, rfl⟩ := List.mem_map.1 hp
  exact hg q (List.mem_filter.1 hq).1 hx d (List.mem_filter.1 hd).1

/-- The items without dependencies after `i` rounds. -/
def layerAt : Nat → Graph α → List α
  | 0, g => Toposort.ordered g
  | i + 1, g => layerAt i (Toposort.remove (Toposort.ordered g) g)

theorem layerAt_nil (i : Nat) : layerAt i ([] : Graph α) = [] := by
  induction i with
  | zero => rfl
  | succ i ih => exact ih

theorem rounds_layerAt {f : Nat} : ∀ {g : Graph α} {q}, Toposort.rounds f g = .ok q →
    ∀ i, setAt q i = layerAt i g := by
  induction f with
  | zero => intro g q h; cases h
  | succ f ih =>
    intro g q h i
    unfold Toposort.rounds at h
    split at h
    · split at h
      · rename_i h1 h2
        cases h
        subst h2
        rw [layerAt_nil]; rfl
      · cases h
    · cases hr : Toposort.rounds f (Toposort.remove (Toposort.ordered g) g) with
      | error e => rw [hr] at h; cases h
      | ok ls =>
        rw [hr] at h; cases h
        cases i with
        | zero => rfl
        | succ i => exact ih hr i

theorem layerAt_restrict (i : Nat) : ∀ {g : Graph α}, ClosedIn X g →
    (layerAt i g).filter X = layerAt i (restrict X g) := by
  induction i with
  | zero => intro g _; exact ordered_restrict g
  | succ i ih =>
    intro g hg
    show (layerAt i _).filter X = layerAt i _
    rw [ih (hg.remove _), remove_restrict hg]

theorem stripSelf_restrict (g : Graph α) :
    restrict X (Toposort.stripSelf g) = Toposort.stripSelf (restrict X g) := by
  unfold restrict Toposort.stripSelf
  rw [List.filter_map]; rfl

theorem ClosedIn.stripSelf {g : Graph α} (hg : ClosedIn X g) : ClosedIn X (Toposort.stripSelf g) := by
  intro p hp hx d hd
  obtain ⟨q, hq, rfl⟩ := List.mem_map.1 hp
  exact hg q hq hx d (List.mem_filter.1 hd).1

theorem addExtra_listed {g : Graph α} (hg : ∀ p ∈ g, ∀ d ∈ p.2, d ∈ Dict.keys g) :
    Toposort.addExtra (Toposort.stripSelf g) = Toposort.stripSelf g := by
  have : Toposort.extraItems (Toposort.stripSelf g) = [] := by
    unfold Toposort.extraItems
    have : ((Toposort.stripSelf g).flatMap Prod.snd).filter
        (fun v => decide (v ∉ (Toposort.stripSelf g).map Prod.fst)) = [] := by
      rw [List.filter_eq_nil_iff]
      intro v hv
      obtain ⟨p, hp, hv⟩ := List.mem_flatMap.1 hv
      obtain ⟨q, hq, rfl⟩ := List.mem_map.1 hp
      have := hg q hq v (List.mem_filter.1 hv).1
      have e : (Toposort.stripSelf g).map Prod.fst = Dict.keys g := by
        unfold Toposort.stripSelf Dict.keys; rw [List.map_map]; rfl
      rw [e]; simpa using this
    rw [this]; rfl
  unfold Toposort.addExtra
  rw [this]; simp

/-- The part has its own queue. -/
theorem toposort_restrict {g : Graph α} {q : List (List α)} (hq : toposort g = .ok q)
    (hl : ∀ p ∈ g, ∀ d ∈ p.2, d ∈ Dict.keys g) (hg : ClosedIn X g) (i : Nat) :
    (setAt q i).filter X = layerAt i (Toposort.stripSelf (restrict X g)) := by
  have key : setAt q i = layerAt i (Toposort.stripSelf g) := by
    unfold toposort at hq
    dsimp only at hq
    split at hq
    · rename_i h; cases hq; subst h
      exact (layerAt_nil i).symm
    · rw [addExtra_listed hl] at hq
      exact rounds_layerAt hq i
  rw [key, layerAt_restrict i hg.stripSelf, stripSelf_restrict]

/-! ## Conditions -/

mutual
theorem samePart_ext {own own' ow ow' : Nat → Option α} : ∀ c c' : Cond α κ W,
    SamePart X own own' c c' → (∀ o, Occurs o c → ow o = own o) →
    (∀ o, Occurs o c' → ow' o = own' o) → SamePart X ow ow' c c'
  | .leaf o k, .leaf o' k', hk, h, h' => by
    obtain ⟨rfl, h1, rfl | ⟨h2, n, h3, h4⟩⟩ := hk
    · exact ⟨rfl, h1, .inl rfl⟩
    · refine ⟨rfl, h1, .inr ⟨?_, n, ?_, h4⟩⟩
      · rw [h o rfl, h' o' rfl]; exact h2
      · rw [h o rfl]; exact h3
  | .all o cs, .all o' cs', hk, h, h' =>
    sameParts_ext cs cs' hk (fun x hx => h x (.inr hx)) fun x hx => h' x (.inr hx)
  | .any o cs, .any o' cs', hk, h, h' =>
    sameParts_ext cs cs' hk (fun x hx => h x (.inr hx)) fun x hx => h' x (.inr hx)
  | .not o c, .not o' c', hk, h, h' =>
    samePart_ext c c' hk (fun x hx => h x (.inr hx)) fun x hx => h' x (.inr hx)
  | .whileNot o f, .whileNot o' f', hk, h, h' =>
    ⟨hk.1, hk.2.1, by rw [h o rfl, h' o' rfl]; exact hk.2.2⟩
  | .nwhen .., _, hk, _, _ => by simp [SamePart] at hk
  | .whileNot .., .nwhen .., hk, _, _ => by simp [SamePart] at hk
  | .whileNot .., .leaf .., hk, _, _ => by simp [SamePart] at hk
  | .whileNot .., .all .., hk, _, _ => by simp [SamePart] at hk
  | .whileNot .., .any .., hk, _, _ => by simp [SamePart] at hk
  | .whileNot .., .not .., hk, _, _ => by simp [SamePart] at hk
  | .leaf .., .nwhen .., hk, _, _ => by simp [SamePart] at hk
  | .leaf .., .whileNot .., hk, _, _ => by simp [SamePart] at hk
  | .leaf .., .all .., hk, _, _ => by simp [SamePart] at hk
  | .leaf .., .any .., hk, _, _ => by simp [SamePart] at hk
  | .leaf .., .not .., hk, _, _ => by simp [SamePart] at hk
  | .all .., .nwhen .., hk, _, _ => by simp [SamePart] at hk
  | .all .., .whileNot .., hk, _, _ => by simp [SamePart] at hk
  | .all .., .leaf .., hk, _, _ => by simp [SamePart] at hk
  | .all .., .any .., hk, _, _ => by simp [SamePart] at hk
  | .all .., .not .., hk, _, _ => by simp [SamePart] at hk
  | .any .., .nwhen .., hk, _, _ => by simp [SamePart] at hk
  | .any .., .whileNot .., hk, _, _ => by simp [SamePart] at hk
  | .any .., .leaf .., hk, _, _ => by simp [SamePart] at hk
  | .any .., .all .., hk, _, _ => by simp [SamePart] at hk
  | .any .., .not .., hk, _, _ => by simp [SamePart] at hk
  | .not .., .nwhen .., hk, _, _ => by simp [SamePart] at hk
  | .not .., .whileNot .., hk, _, _ => by simp [SamePart] at hk
  | .not .., .leaf .., hk, _, _ => by simp [SamePart] at hk
  | .not .., .all .., hk, _, _ => by simp [SamePart] at hk
  | .not .., .any .., hk, _, _ => by simp [SamePart] at hk
theorem sameParts_ext {own own' ow ow' : Nat → Option α} : ∀ cs cs' : List (Cond α κ W),
    SameParts X own own' cs cs' → (∀ o, OccursAny o cs → ow o = own o) →
    (∀ o, OccursAny o cs' → ow' o = own' o) → SameParts X ow ow' cs cs'
  | [], [], _, _, _ => trivial
  | [], _ :: _, hk, _, _ => by simp [SameParts] at hk
  | _ :: _, [], hk, _, _ => by simp [SameParts] at hk
  | c :: cs, c' :: cs', hk, h, h' =>
    ⟨samePart_ext c c' hk.1 (fun x hx => h x (.inl hx)) fun x hx => h' x (.inl hx),
      sameParts_ext cs cs' hk.2 (fun x hx => h x (.inr hx)) fun x hx => h' x (.inr hx)⟩
end

theorem sameParts_leaves {own own' : Nat → Option α} {n : α} (hn : X n = true) :
    ∀ (ds : List α) (k k' : Nat), (∀ d ∈ ds, X d = true) →
      (∀ x, k ≤ x → x < k + ds.length → own x = some n) →
      (∀ x, k' ≤ x → x < k' + ds.length → own' x = some n) →
      SameParts X own own' (defaultLeaves k ds : List (Cond α κ W)) (defaultLeaves k' ds)
  | [], _, _, _, _, _ => trivial
  | d :: ds, k, k', hd, h, h' => by
    have e1 := h k (Nat.le_refl _) (by simp)
    have e2 := h' k' (Nat.le_refl _) (by simp)
    refine ⟨⟨rfl, hd d (by simp), .inr ⟨e2.trans e1.symm, n, e1, hn⟩⟩,
      sameParts_leaves hn ds (k + 1) (k' + 1) (fun x hx => hd x (by simp [hx])) ?_ ?_⟩
    · intro x h1 h2; exact h x (by omega) (by simp; omega)
    · intro x h1 h2; exact h' x (by omega) (by simp; omega)

/-- Default conditions for the same senders. -/
theorem IsDefault.samePart {st st' : Store α κ} {n : α} {deps : List α} {c c' : Cond α κ W}
    (hn : X n = true) (hd : ∀ d ∈ deps, X d = true) (h : IsDefault st n deps c)
    (h' : IsDefault st' n deps c') : SamePart X st.owner st'.owner c c' := by
  obtain ⟨o, rfl, _, h3, h4⟩ := h.ex
  obtain ⟨o', rfl, _, h3', h4'⟩ := h'.ex
  match deps, hd, h3, h4, h3', h4' with
  | [], _, _, _, _, _ => exact ⟨rfl, trivial, .inl rfl⟩
  | [d], hd, h3, _, h3', _ =>
    exact ⟨rfl, hd d (by simp), .inr ⟨(h3' d rfl).trans (h3 d rfl).symm, n, h3 d rfl, hn⟩⟩
  | d :: d' :: ds, hd, _, h4, _, h4' =>
    simp only [Sys.defaultCond]
    rw [defaultLeaves_eq, defaultLeaves_eq]
    exact sameParts_leaves hn _ _ _ hd (h4 (by simp)) (h4' (by simp))

/-! ## The start -/

theorem get?_restrict (g : Graph α) {n : α} (hn : X n = true) :
    Dict.get? (restrict X g) n = Dict.get? g n := by
  induction g with
  | nil => rfl
  | cons p g ih =>
    unfold restrict
    rw [List.filter_cons]
    by_cases hp : X p.1 = true
    · rw [if_pos hp, Dict.get?_cons, Dict.get?_cons]
      split
      · rfl
      · exact ih
    · rw [if_neg hp, Dict.get?_cons]
      have : p.1 ≠ n := fun e => hp (by rw [e]; exact hn)
      rw [if_neg this]
      exact ih

theorem Started.shows {s0 s : Sys α κ W} (h : Started a s0 s) {log : List TimeScale}
    (hl : Shows (s0.clock a.id) log) : Shows (s.clock a.id) log := by
  obtain ⟨ab, ai, ae, hc⟩ := h.clock
  obtain ⟨h1, c0, h2, h3, h4⟩ := hl
  have : s.clock a.id = { (s0.clock a.id) with time :=
      { (s0.clock a.id).time with absolute := ab, absolute_interval := ai, absolute_enabled := ae } } := by
    simp only [View.clock, hc, Dict.get?_set_self]
  rw [this]
  exact ⟨h1, c0, h2, h3, fun x => by rw [← h4 x]⟩

/-- The conditions added when the run begins are not `NWhen`. -/
theorem Spec.EndsOutside.start (h : EndsOutside X a s) (hx : ∀ n, X n = true → n ∈ s.nodes)
    (hs : s.start a = (s1, .ok abs)) : EndsOutside X a s1 := by
  intro n o d k hn hd
  obtain ⟨_, x2, x3, _⟩ := (Sys.start_ok hs).conds_spec
  cases hc : Dict.get? s.conds n with
  | some c =>
    rw [x2 n c hc] at hd
    cases hd
    exact h n o d k hn hc
  | none =>
    obtain ⟨deps, c, _, e2, e3⟩ := x3 n (hx n hn) hc
    rw [e2] at hd
    obtain ⟨o', rfl, _⟩ := e3.ex
    match deps, hd with
    | [], hd => cases hd
    | [_], hd => cases hd
    | _ :: _ :: _, hd => cases hd

/-- When the runs have begun, the schedulers agree on the part. -/
theorem Spec.PartGiven.start (hid : a'.id = a.id) (h : PartGiven X a.id s t)
    (hs : s.start a = (s1, .ok abs)) (ht : t.start a' = (t1, .ok abs')) : PartAgrees X a.id s1 t1 := by
  have S := Sys.start_ok hs
  have T := Sys.start_ok ht
  have hcl' : ClosedIn X t.graph := by
    intro p hp hx
    have : p ∈ s.graph.filter fun p => X p.1 := by
      rw [← h.graph]; exact List.mem_filter.2 ⟨hp, hx⟩
    exact h.closed p (List.mem_filter.1 this).1 hx
  refine ⟨fun i => ?_, fun n hn => ?_, fun n hn => ?_, ?_, ?_, ?_⟩
  · rw [S.queue, T.queue, toposort_restrict h.queue h.listed h.closed,
      toposort_restrict h.queue' h.listed' hcl']
    unfold restrict
    rw [h.graph]
  · rw [S.nodes, T.nodes]; exact h.nodes n hn
  · obtain ⟨x1, x2, x3, _⟩ := S.conds_spec
    obtain ⟨y1, y2, y3, _⟩ := T.conds_spec
    rcases h.conds n hn with ⟨g1, g2⟩ | ⟨c, c', g1, g2, g3, g4, g5⟩
    · obtain ⟨deps, c, e1, e2, e3⟩ := x3 n (h.nodes n hn).1 g1
      obtain ⟨deps', c', e1', e2', e3'⟩ := y3 n (h.nodes n hn).2 g2
      have : deps' = deps := by
        rw [← get?_restrict _ hn] at e1 e1'
        unfold restrict at e1 e1'
        rw [h.graph, e1] at e1'
        exact (Option.some.inj e1').symm
      subst this
      refine ⟨c, c', e2, e2', .inl (e3.samePart hn (fun d hd => ?_) e3')⟩
      exact h.closed (n, deps') (Dict.mem_of_get? e1) hn d hd
    · refine ⟨c, c', x2 n c g1, y2 n c' g2, ?_⟩
      rcases g3 with g3 | ⟨o, d, o', d', k, rfl, rfl, g3, q1, q2, q3⟩
      · exact .inl (samePart_ext c c' g3 (fun o ho => x1.owner o (g4 o ho))
          fun o ho => y1.owner o (g5 o ho))
      · refine .inr ⟨o, d, o', d', k, rfl, rfl, ?_, q1.start hs, q2.start ht, ?_⟩
        · exact samePart_ext d d' g3 (fun x hx => x1.owner x (g4 x (.inr hx)))
            fun x hx => y1.owner x (g5 x (.inr hx))
        · rw [(start_quota hs q1.made).2.1, (start_quota ht q2.made).2.1]; exact q3
  · obtain ⟨f, f', g1, g2, g3⟩ := h.total
    obtain ⟨k, k1, k2, k3, _⟩ := S.total
    obtain ⟨k', k1', k2', k3', _⟩ := T.total
    rw [hid] at k1' k3'
    refine ⟨k, k', k1, k1', fun ts n hn => ?_⟩
    by_cases hv : ts.val ≤ 2
    · rw [k2 ts n hv, k2' ts n hv]
    · rw [k3 f g1 ts n (by omega), k3' f' g2 ts n (by omega)]; exact g3 ts n hn
  · have := T.useable
    rw [hid] at this
    exact ⟨_, _, S.useable, this, fun _ _ _ _ => rfl⟩
  · obtain ⟨l, l', g1, g2, g3⟩ := h.clock
    have := T.shows (by rw [hid]; exact g2)
    rw [hid] at this
    exact ⟨l, l', S.shows g1, this, g3⟩

end GS

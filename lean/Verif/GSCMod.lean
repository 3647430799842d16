import Verif.GSCPost
/-! # `modify_graph` as a whole -/

set_option linter.unusedSectionVars false

namespace GS
open Spec Relation
variable {α : Type _} [DecidableEq α]

/-! ## Assigning a new set -/

namespace HG

theorem get?_assign (s : HG α) (n : α) (v : List α) (m : α) :
    Dict.get? (s.assign n v).graph m = if n = m then some s.heap.length else Dict.get? s.graph m := by
  unfold assign; simp only [Dict.get?_set]

theorem Ok.assign {s : HG α} (h : s.Ok) (n : α) (v : List α) : (s.assign n v).Ok := by
  refine ⟨h.wf.set _ _, fun m a e => ?_⟩
  have hl : (s.assign n v).heap.length = s.heap.length + 1 := by simp [HG.assign]
  rw [get?_assign] at e
  rw [hl]
  by_cases hm : n = m
  · rw [if_pos hm] at e; cases e; omega
  · rw [if_neg hm] at e; have := h.bound m a e; omega

theorem senders_assign {s : HG α} (h : s.Ok) (n : α) (v : List α) (m : α) :
    (s.assign n v).senders m = if m = n then v else s.senders m := by
  unfold senders
  rw [get?_assign]
  by_cases hm : m = n
  · subst hm; simp only [if_true]; exact read_append_self _ _
  · rw [if_neg (fun e => hm e.symm), if_neg hm]
    cases e : Dict.get? s.graph m with
    | none => rfl
    | some a => exact read_append_left _ _ (h.bound m a e)

theorem shares_assign {s : HG α} (h : s.Ok) (n : α) (v : List α) (a b : α)
    (hs : (s.assign n v).Shares a b) : a = b ∨ (a ≠ n ∧ b ≠ n ∧ s.Shares a b) := by
  obtain ⟨d, h1, h2⟩ := hs
  rw [get?_assign] at h1 h2
  by_cases ha : n = a
  · by_cases hb : n = b
    · exact .inl (ha.symm.trans hb)
    · rw [if_pos ha] at h1; rw [if_neg hb] at h2; cases h1
      have := h.bound b _ h2; omega
  · by_cases hb : n = b
    · rw [if_neg ha] at h1; rw [if_pos hb] at h2; cases h2
      have := h.bound a _ h1; omega
    · rw [if_neg ha] at h1; rw [if_neg hb] at h2
      exact .inr ⟨fun e => ha e.symm, fun e => hb e.symm, d, h1, h2⟩

theorem keys_assign (s : HG α) (n : α) (v : List α) (hn : n ∈ Dict.keys s.graph) :
    Dict.keys (s.assign n v).graph = Dict.keys s.graph := by
  unfold assign; simp only [Dict.keys_set, if_pos hn]

end HG

/-! ## What is not touched -/

/-- `t` is a graph with nodes `K` whose sets are not among the objects of `h0`, and the
objects of `h0` have not been modified. -/
structure HFrame (h0 : Heap α) (K : List α) (t : HG α) : Prop where
  ok : t.Ok
  keys : Dict.keys t.graph = K
  fresh : ∀ n a, Dict.get? t.graph n = some a → h0.length ≤ a
  len : h0.length ≤ t.heap.length
  reads : ∀ a, a < h0.length → t.heap.read a = h0.read a

namespace HFrame
variable {h0 : Heap α} {K : List α} {t u : HG α}

theorem edits {Q : HG α → Bool → α → α → Prop} (h : HFrame h0 K t) (e : Edits Q t u) :
    HFrame h0 K u :=
  ⟨e.ok h.ok, by rw [e.graph, h.keys], by rw [e.graph]; exact h.fresh, by rw [e.length]; exact h.len,
    fun a ha => by
      rw [e.read a (fun n hn => by have := h.fresh n a hn; omega), h.reads a ha]⟩

theorem assign (h : HFrame h0 K t) {n : α} (hn : n ∈ K) (v : List α) : HFrame h0 K (t.assign n v) := by
  refine ⟨h.ok.assign n v, ?_, ?_, ?_, ?_⟩
  · rw [HG.keys_assign t n v (by rw [h.keys]; exact hn), h.keys]
  · intro m a e
    rw [HG.get?_assign] at e
    by_cases hm : n = m
    · rw [if_pos hm] at e; cases e; exact h.len
    · rw [if_neg hm] at e; exact h.fresh m a e
  · have := h.len; simp [HG.assign]; omega
  · intro a ha
    rw [← h.reads a ha]
    exact read_append_left _ _ (Nat.lt_of_lt_of_le ha h.len)

theorem clone {s : HG α} (h : s.Ok) : HFrame s.heap (Dict.keys s.graph) s.clone := by
  have hc := HG.clone_spec h
  obtain ⟨l, hl⟩ := hc.grows
  exact ⟨hc.ok, hc.keys, hc.fresh, by rw [hl]; simp, fun a ha => by
    rw [hl]; exact read_append_left _ _ ha⟩

/-- Frames compose. -/
theorem clone' (h : HFrame h0 K t) : HFrame h0 K t.clone := by
  have hc := HG.clone_spec h.ok
  obtain ⟨l, hl⟩ := hc.grows
  refine ⟨hc.ok, by rw [hc.keys, h.keys], fun n a e => ?_, ?_, fun a ha => ?_⟩
  · have := hc.fresh n a e; have := h.len; omega
  · rw [hl, List.length_append]; have := h.len; omega
  · rw [hl, read_append_left _ _ (Nat.lt_of_lt_of_le ha h.len), h.reads a ha]

end HFrame

namespace OpCond

theorem frame_start {h0 : Heap α} {K : List α} {t : HG α} (c : OpCond α) (owner : α)
    (hS : Start c owner t (c.start owner t)) (h : HFrame h0 K t) : HFrame h0 K (c.start owner t) := by
  obtain ⟨l, hl⟩ := hS.grows
  refine ⟨hS.ok, by rw [hS.keys, h.keys], fun n a e => ?_, ?_, fun a ha => ?_⟩
  · rcases hS.low n a e with ⟨m, hm⟩ | hle
    · exact h.fresh m a hm
    · have := h.len; omega
  · rw [hl, List.length_append]; have := h.len; omega
  · rw [hl, read_append_left _ _ (Nat.lt_of_lt_of_le ha h.len), h.reads a ha]

theorem loopEnd_graph (c : OpCond α) (owner : α) (s : HG α) :
    (c.loopEnd owner s).1.graph = (c.start owner s).graph ∧
    (c.loopEnd owner s).1.heap.length = (c.start owner s).heap.length ∧
    ∀ a, (∀ n, Dict.get? (c.start owner s).graph n ≠ some a) →
      (c.loopEnd owner s).1.heap.read a = (c.start owner s).heap.read a :=
  loop_graph _ _ _ _ (c.start owner s, _)

theorem frame_loopEnd {h0 : Heap α} {K : List α} {t : HG α} (c : OpCond α) (owner : α)
    (hS : Start c owner t (c.start owner t)) (h : HFrame h0 K t) : HFrame h0 K (c.loopEnd owner t).1 := by
  have hs := frame_start c owner hS h
  obtain ⟨g1, g2, g3⟩ := loopEnd_graph c owner t
  refine ⟨⟨by rw [g1]; exact hs.ok.wf, by rw [g1, g2]; exact hs.ok.bound⟩, by rw [g1, hs.keys],
    by rw [g1]; exact hs.fresh, by rw [g2]; exact hs.len, fun a ha => ?_⟩
  rw [g3 a (fun n hn => by have := hs.fresh n a hn; omega), hs.reads a ha]

theorem loopEnd_shares (c : OpCond α) (owner : α) (s : HG α) (n m : α) :
    (c.loopEnd owner s).1.Shares n m ↔ (c.start owner s).Shares n m := by
  unfold HG.Shares; rw [(loopEnd_graph c owner s).1]

/-- Untouched senders are not changed by the loop. -/
theorem loopEnd_untouched (c : OpCond α) (owner : α) {s : HG α} (hs : s.Ok) (hf : c.Fits owner s)
    (hi : NoSharing s) (x r : α) (hx : ¬ Touched c owner x) (hr : ¬ Touched c owner r) :
    x ∈ (c.loopEnd owner s).1.senders r ↔ x ∈ s.senders r := by
  have hS := start_spec c owner hs hf hi
  have := (loop_mem (c.newSenders owner s s.clone.heap).2 (c.newReceivers owner s) (Dict.keys s.graph)
    (c.newReceivers owner s) (c.start owner s, firstConflicts (c.newSenders owner s s.clone.heap).2
      (c.newSenders owner s s.clone.heap).1 (c.newReceivers owner s)) hS.ok
      (newReceivers_spec c owner s hf.apart).1).2.1 x r
      (fun h => hx ((keys_newReceivers c owner s hf.apart x).mp h))
  exact this.trans (by rw [hS.other r hr])

/-- Touched senders of a node with a set of its own. -/
theorem loopEnd_private (c : OpCond α) (owner : α) {s : HG α} (hs : s.Ok) (hf : c.Fits owner s)
    (hi : NoSharing s) (x r : α) (hx : Touched c owner x) (hr : r ∈ Dict.keys s.graph)
    (hp : ∀ m, (c.start owner s).Shares m r → m = r) :
    x ∈ (c.loopEnd owner s).1.senders r ↔ r ∈ c.receiversVal owner s x := by
  have hS := start_spec c owner hs hf hi
  have h := (loop_mem (c.newSenders owner s s.clone.heap).2 (c.newReceivers owner s) (Dict.keys s.graph)
    (c.newReceivers owner s) (c.start owner s, firstConflicts (c.newSenders owner s s.clone.heap).2
      (c.newSenders owner s s.clone.heap).1 (c.newReceivers owner s)) hS.ok
      (newReceivers_spec c owner s hf.apart).1).2.2 r hp (by rw [hS.keys]; exact hr) hr x
      ((keys_newReceivers c owner s hf.apart x).mpr hx)
  refine Iff.trans h ?_
  unfold Dict.getD
  rw [(newReceivers_spec c owner s hf.apart).2 x, if_pos (show x = owner ∨ x ∈ c.nodes from hx)]

/-! ## What the subclasses add -/

/-- The owner's set is that of a subject: both `KEEP` for the owner's senders and
`REPLACE` for the subject's. -/
def Aliased (c : OpCond α) : Prop :=
  c.ownerSenders = .keep ∧ ∃ n ∈ c.nodes, c.subjectSenders n = .replace

theorem place_before_edits (c : OpCond α) (owner : α) (hk : c.kind = .before) (s : HG α) :
    Edits (fun _ b x r => b = true ∧ x = owner ∧ r ∈ c.nodes) s (c.place owner s) := by
  unfold place; rw [hk]; simp only
  have : ∀ (l : List α), (∀ n ∈ l, n ∈ c.nodes) → ∀ u : HG α,
      Edits (fun _ b x r => b = true ∧ x = owner ∧ r ∈ c.nodes) u
        (l.foldl (fun s n => s.upd n (setAdd owner)) u) := by
    intro l
    induction l with
    | nil => intro _ u; exact .refl
    | cons n l ih =>
      intro hl u
      rw [List.foldl_cons]
      exact Edits.trans (Edits.refl.step (add := true) (x := owner) (r := n)
        ⟨rfl, rfl, hl n List.mem_cons_self⟩) (ih (fun m hm => hl m (List.mem_cons_of_mem _ hm)) _)
  exact this c.nodes (fun _ h => h) s

theorem place_before_mem (c : OpCond α) (owner : α) (hk : c.kind = .before) {s : HG α} (hs : s.Ok)
    (hn : ∀ n ∈ c.nodes, n ∈ Dict.keys s.graph) : ∀ n ∈ c.nodes, owner ∈ (c.place owner s).senders n := by
  unfold place; rw [hk]; simp only
  have : ∀ (l : List α), (∀ n ∈ l, n ∈ Dict.keys s.graph) → ∀ u : HG α, u.Ok → u.graph = s.graph →
      ∀ n, (n ∈ l ∨ owner ∈ u.senders n) →
        owner ∈ (l.foldl (fun s n => s.upd n (setAdd owner)) u).senders n := by
    intro l
    induction l with
    | nil => intro _ u _ _ n h; exact h.resolve_left (by simp)
    | cons m l ih =>
      intro hl u hu hg n h
      rw [List.foldl_cons]
      refine ih (fun k hk => hl k (List.mem_cons_of_mem _ hk)) _ (hu.upd _ _) (by simp [hg]) n ?_
      by_cases hnl : n ∈ l
      · exact .inl hnl
      · right
        by_cases hnm : n = m
        · subst hnm
          rw [HG.senders_upd_self hu (by rw [hg]; exact hl n List.mem_cons_self)]
          simp
        · have ho : owner ∈ u.senders n := h.resolve_left (by simp [hnl, hnm])
          by_cases hsh : u.Shares m n
          · rw [HG.senders_upd_shared hu _ hsh]; simp [ho]
          · rw [HG.senders_upd_other hu _ hsh]; exact ho
  intro n hn'
  exact this c.nodes hn s hs rfl n (.inl hn')

/-- What is known about the graph before post-processing. -/
structure Placed (c : OpCond α) (owner : α) (s : HG α) (t : HG α) : Prop where
  frame : HFrame s.heap (Dict.keys s.graph) t
  shares : ∀ n m, t.Shares n m → n = m ∨ (Touched c owner n ∧ Touched c owner m)
  ownerShares : ¬ (c.kind = .before ∧ c.Aliased) → ∀ n, t.Shares owner n → c.kind ≠ .withNode → n = owner
  others : ∀ x r, ¬ Touched c owner x → ¬ Touched c owner r → (x ∈ t.senders r ↔ x ∈ s.senders r)

theorem place_spec (c : OpCond α) (owner : α) {s0 s : HG α} (hs : s.Ok) (hf : c.Fits owner s)
    (hi : NoSharing s) (hfr : HFrame s0.heap (Dict.keys s0.graph) s)
    (hsame : ∀ x r, ¬ Touched c owner x → ¬ Touched c owner r → (x ∈ s.senders r ↔ x ∈ s0.senders r)) :
    Placed c owner s0 (c.place owner (c.loopEnd owner s).1) := by
  have hS := start_spec c owner hs hf hi
  have hF := frame_loopEnd c owner hS hfr
  have hold : ∀ x r, ¬ Touched c owner x → ¬ Touched c owner r →
      (x ∈ (c.loopEnd owner s).1.senders r ↔ x ∈ s0.senders r) := fun x r hx hr =>
    (loopEnd_untouched c owner hs hf hi x r hx hr).trans (hsame x r hx hr)
  have hsh : ∀ n m, (c.loopEnd owner s).1.Shares n m → n = m ∨ (Touched c owner n ∧ Touched c owner m) :=
    fun n m h => hS.shares n m ((loopEnd_shares c owner s n m).mp h)
  have hk0 : Dict.keys s.graph = Dict.keys s0.graph := hfr.keys
  cases hk : c.kind with
  | before =>
    have E := place_before_edits c owner hk (c.loopEnd owner s).1
    refine ⟨hF.edits E, fun n m h => hsh n m ((E.shares n m).mp h), fun ha n h _ => ?_, fun x r hx hr => ?_⟩
    · have := hS.ownerShares n ((loopEnd_shares c owner s _ _).mp ((E.shares _ _).mp h))
      rcases this with h | ⟨h1, h2, h3⟩
      · exact h
      · exact absurd ⟨hk, h1, n, h2, h3⟩ ha
    · rw [E.mem_iff hF.ok x r (fun _ _ _ _ q => absurd (.inl q.2.1) hx), hold x r hx hr]
  | withNode =>
    unfold place; rw [hk]; simp only
    cases hn : c.nodes with
    | nil => exact ⟨hF, hsh, fun _ n _ h => absurd hk h, hold⟩
    | cons n l =>
      simp only
      have hno : n ∈ c.nodes := by rw [hn]; exact List.mem_cons_self
      have f1 := hF.assign (n := owner) (by rw [← hk0]; exact hf.ownerIn)
        (setUnion ((c.loopEnd owner s).1.senders owner) ((c.loopEnd owner s).1.senders n))
      have f2 := f1.assign (n := n) (by rw [← hk0]; exact hf.nodesIn n hno)
        (setUnion ((c.loopEnd owner s).1.senders owner) ((c.loopEnd owner s).1.senders n))
      refine ⟨f2, fun a b h => ?_, fun _ m _ h => absurd hk h, fun x r hx hr => ?_⟩
      · rcases HG.shares_assign f1.ok _ _ a b h with e | ⟨_, _, h⟩
        · exact .inl e
        · rcases HG.shares_assign hF.ok _ _ a b h with e | ⟨_, _, h⟩
          · exact .inl e
          · exact hsh a b h
      · have h1 : r ≠ n := fun e => hr (.inr (e ▸ hno))
        have h2 : r ≠ owner := fun e => hr (.inl e)
        rw [HG.senders_assign f1.ok, if_neg h1, HG.senders_assign hF.ok, if_neg h2, hold x r hx hr]
  | after =>
    unfold place; rw [hk]; simp only
    have f1 := hF.assign (n := owner) (by rw [← hk0]; exact hf.ownerIn)
        (setUnion ((c.loopEnd owner s).1.senders owner) c.nodes)
    refine ⟨f1, fun a b h => ?_, fun _ m h _ => ?_, fun x r hx hr => ?_⟩
    · rcases HG.shares_assign hF.ok _ _ a b h with e | ⟨_, _, h⟩
      · exact .inl e
      · exact hsh a b h
    · rcases HG.shares_assign hF.ok _ _ _ _ h with e | ⟨h, _⟩
      · exact e.symm
      · exact absurd rfl h
    · have h2 : r ≠ owner := fun e => hr (.inl e)
      rw [HG.senders_assign hF.ok, if_neg h2, hold x r hx hr]

/-! ## From the argument to the result -/

/-- The argument of `modify_graph` after cloning and `_preprocess`. -/
def pre (c : OpCond α) (owner : α) (s : HG α) : HG α := c.preprocess owner s.clone.clone

/-- Before post-processing. -/
def placed (c : OpCond α) (owner : α) (s : HG α) : HG α := c.place owner (c.loopEnd owner (c.pre owner s)).1

theorem transform_eq (cyc : Graph α → List (List α)) (c : OpCond α) (owner : α) (s : HG α) (hs : s.Ok) :
    c.transform cyc owner s.clone =
      if c.ignoreConflicts = false ∧ (c.loopEnd owner (c.pre owner s)).2 = true then
        .error .conditionError
      else c.postprocess cyc owner s.value (c.placed owner s) := by
  unfold transform
  rw [operate_eq, HG.clone_value hs]
  by_cases h : c.ignoreConflicts = false ∧ (c.loopEnd owner (c.preprocess owner s.clone.clone)).2 = true
  · rw [if_pos h]; unfold pre; rw [if_pos h]
  · rw [if_neg h]; unfold pre; rw [if_neg h]; rfl

structure Pre (c : OpCond α) (owner : α) (s t : HG α) : Prop where
  frame : HFrame s.heap (Dict.keys s.graph) t
  noShare : NoSharing t
  fits : c.Fits owner t
  mem : ∀ x r, x ∈ t.senders r ↔
    x ∈ s.senders r ∧ ¬ (x = owner ∧ r ∈ c.nodes) ∧ ¬ (x ∈ c.nodes ∧ r = owner)

theorem pre_spec (c : OpCond α) (owner : α) {s : HG α} (hs : s.Ok) (hf : c.Fits owner s) :
    Pre c owner s (c.pre owner s) := by
  have h1 := HG.clone_spec hs
  have h2 := HG.clone_spec h1.ok
  have F := (HFrame.clone hs).clone'
  have E := preprocess_edits c owner s.clone.clone
  have hk : Dict.keys s.clone.clone.graph = Dict.keys s.graph := by rw [h2.keys, h1.keys]
  have hf2 : c.Fits owner s.clone.clone :=
    ⟨by rw [hk]; exact hf.ownerIn, by rw [hk]; exact hf.nodesIn, hf.apart⟩
  refine ⟨F.edits E, ?_, ⟨?_, ?_, hf.apart⟩, ?_⟩
  · unfold NoSharing pre; rw [E.graph]; exact h2.inj
  · unfold pre; rw [E.graph]; exact hf2.ownerIn
  · unfold pre; rw [E.graph]; exact hf2.nodesIn
  · intro x r
    unfold pre
    rw [preprocess_mem c owner h2.ok hf2 h2.inj, h2.same, h1.same]

theorem placed_spec (c : OpCond α) (owner : α) {s : HG α} (hs : s.Ok) (hf : c.Fits owner s) :
    Placed c owner s (c.placed owner s) := by
  have P := pre_spec c owner hs hf
  refine place_spec c owner P.frame.ok P.fits P.noShare P.frame fun x r hx hr => ?_
  rw [P.mem]
  constructor
  · exact fun h => h.1
  · exact fun h => ⟨h, fun e => hx (.inl e.1), fun e => hx (.inr e.1)⟩

/-- The edits that post-processing may make. -/
def MayPost (c : OpCond α) (owner : α) (base : Graph α) (u : HG α) (b : Bool) (x r : α) : Prop :=
  (c.removeSelf = true ∧ b = false ∧ x = r ∧ x ∉ Dict.getD base x) ∨
  (c.prune = true ∧ c.MayCut owner base u b x r) ∨ c.MayAdd owner base u b x r

/-- After the removal of self-edges. -/
def selfCut (c : OpCond α) (base : Graph α) (t : HG α) : HG α :=
  if c.removeSelf then removeNewSelf base t else t

theorem selfCut_edits (c : OpCond α) (base : Graph α) (t : HG α) :
    Edits (fun _ b x r => c.removeSelf = true ∧ b = false ∧ x = r ∧ x ∉ Dict.getD base x) t
      (c.selfCut base t) := by
  unfold selfCut
  by_cases h : c.removeSelf = true
  · rw [if_pos h]
    exact (removeNewSelf_edits base t).mono fun _ _ _ _ q => ⟨h, q.1, q.2.1, q.2.2.1⟩
  · rw [if_neg h]; exact .refl

theorem postprocess_spec (cyc : Graph α → List (List α)) (c : OpCond α) (owner : α) (base : Graph α)
    (t : HG α) (ht : t.Ok) :
    ∃ u, c.pruneCycles cyc owner base (c.selfCut base t) = .ok u ∧
      Edits (fun u b x r => c.prune = true ∧ c.MayCut owner base u b x r) (c.selfCut base t) u ∧
      (cyc (c.selfCut base t).value = [] → u = c.selfCut base t) ∧
      c.postprocess cyc owner base t = .ok (c.reconnectAll owner base u) ∧
      Edits (c.MayPost owner base) t (c.reconnectAll owner base u) := by
  have E1 := selfCut_edits c base t
  obtain ⟨u, u1, u2, u3⟩ := pruneCycles_spec cyc c owner base (c.selfCut base t) (E1.ok ht)
  refine ⟨u, u1, u2, u3, ?_, ?_⟩
  · unfold postprocess; unfold selfCut at u1; rw [u1]
  · refine ((E1.mono ?_).trans (u2.mono ?_)).trans ((reconnectAll_edits c owner base u).mono ?_)
    · exact fun _ _ _ _ q => .inl q
    · exact fun _ _ _ _ q => .inr (.inl q)
    · exact fun _ _ _ _ q => .inr (.inr q)

/-- `modify`, in full: unchanged, rejected or edited. -/
theorem modify_cases (cyc : Graph α → List (List α)) (c : OpCond α) (owner : α) {s : HG α} (hs : s.Ok)
    (hf : c.Fits owner s) :
    ((∀ n ∈ c.nodes, c.valid owner s.clone n = true) ∧ c.modify cyc owner s = .ok s.clone) ∨
    ((¬ ∀ n ∈ c.nodes, c.valid owner s.clone n = true) ∧ c.ignoreConflicts = false ∧
      (c.loopEnd owner (c.pre owner s)).2 = true ∧ c.modify cyc owner s = .error .conditionError) ∨
    ((¬ ∀ n ∈ c.nodes, c.valid owner s.clone n = true) ∧
      ¬ (c.ignoreConflicts = false ∧ (c.loopEnd owner (c.pre owner s)).2 = true) ∧
      ∃ u, c.pruneCycles cyc owner s.value (c.selfCut s.value (c.placed owner s)) = .ok u ∧
      Edits (fun u b x r => c.prune = true ∧ c.MayCut owner s.value u b x r)
        (c.selfCut s.value (c.placed owner s)) u ∧
      (cyc (c.selfCut s.value (c.placed owner s)).value = [] → u = c.selfCut s.value (c.placed owner s)) ∧
      c.modify cyc owner s = .ok (c.reconnectAll owner s.value u) ∧
      Edits (c.MayPost owner s.value) (c.placed owner s) (c.reconnectAll owner s.value u)) := by
  have hlen : (c.nodes.filter (c.valid owner s.clone)).length = c.nodes.length ↔
      ∀ n ∈ c.nodes, c.valid owner s.clone n = true := List.length_filter_eq_length_iff
  unfold modify
  by_cases h : ∀ n ∈ c.nodes, c.valid owner s.clone n = true
  · rw [if_pos (hlen.mpr h)]; exact .inl ⟨h, rfl⟩
  · rw [if_neg (fun e => h (hlen.mp e)), transform_eq cyc c owner s hs]
    right
    by_cases h2 : c.ignoreConflicts = false ∧ (c.loopEnd owner (c.pre owner s)).2 = true
    · rw [if_pos h2]; exact .inl ⟨h, h2.1, h2.2, rfl⟩
    · rw [if_neg h2]
      exact .inr ⟨h, h2, postprocess_spec cyc c owner s.value _ (placed_spec c owner hs hf).frame.ok⟩

/-- In all cases: the result is framed. -/
theorem modify_frame (cyc : Graph α → List (List α)) (c : OpCond α) (owner : α) {s t : HG α} (hs : s.Ok)
    (hf : c.Fits owner s) (h : c.modify cyc owner s = .ok t) :
    HFrame s.heap (Dict.keys s.graph) t := by
  rcases modify_cases cyc c owner hs hf with ⟨_, e⟩ | ⟨_, _, _, e⟩ | ⟨_, _, u, _, _, _, e, E⟩
  · rw [h] at e; cases e; exact HFrame.clone hs
  · rw [h] at e; cases e
  · rw [h] at e; cases e; exact (placed_spec c owner hs hf).frame.edits E

end OpCond
end GS

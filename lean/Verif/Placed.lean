import Verif.Spec.Placed
import Verif.GSCFacts
import Verif.GraphEdges
import Verif.Props.GSC
/-!
# The graph that built-in structural conditions make of a graph
-/

set_option linter.unusedSectionVars false

namespace GS
open Spec
variable {α κ W : Type _} [DecidableEq α] [DecidableEq κ]

/-- All elements of all sets have the property `P`. -/
def Heap.Only (P : α → Prop) (h : Heap α) : Prop := ∀ v ∈ h, ∀ x ∈ v, P x

namespace Heap.Only
variable {P : α → Prop} {h : Heap α}

theorem read (k : h.Only P) (a : Addr) : ∀ x ∈ h.read a, P x := by
  intro x hx
  unfold Heap.read at hx
  cases e : h[a]? with
  | none => rw [e] at hx; cases hx
  | some v => rw [e] at hx; exact k v (List.mem_of_getElem? e) x hx

theorem append (k : h.Only P) {v : List α} (hv : ∀ x ∈ v, P x) : Heap.Only P (h ++ [v]) := by
  intro u hu
  rcases List.mem_append.1 hu with hu | hu
  · exact k u hu
  · rw [List.mem_singleton.1 hu]; exact hv

theorem set (k : h.Only P) (a : Addr) {v : List α} (hv : ∀ x ∈ v, P x) : Heap.Only P (h.set a v) := by
  intro u hu
  rcases List.mem_or_eq_of_mem_set hu with hu | rfl
  · exact k u hu
  · exact hv

end Heap.Only

namespace HG
variable {P : α → Prop} {s t : HG α}

theorem only_senders (k : s.heap.Only P) (n : α) : ∀ x ∈ s.senders n, P x := by
  unfold senders
  cases Dict.get? s.graph n with
  | none => intro x hx; cases hx
  | some a => exact k.read a

theorem only_upd (k : s.heap.Only P) (n : α) (f : List α → List α)
    (hf : ∀ l, (∀ x ∈ l, P x) → ∀ x ∈ f l, P x) : (s.upd n f).heap.Only P := by
  unfold upd
  cases Dict.get? s.graph n with
  | none => exact k
  | some a => exact k.set a (hf _ (k.read a))

theorem only_assign (k : s.heap.Only P) (n : α) {v : List α} (hv : ∀ x ∈ v, P x) :
    (s.assign n v).heap.Only P := k.append hv

theorem only_cloneFrom (g : Dict α Addr) : ∀ h : Heap α, h.Only P → (cloneFrom h g).heap.Only P := by
  induction g with
  | nil => intro h k; exact k
  | cons p g ih => intro h k; exact ih _ (k.append (k.read p.2))

theorem only_clone (k : s.heap.Only P) : s.clone.heap.Only P := only_cloneFrom _ _ k

end HG

theorem only_setAdd {P : α → Prop} {x : α} (hx : P x) (l : List α) (h : ∀ y ∈ l, P y) :
    ∀ y ∈ setAdd x l, P y := by
  intro y hy
  unfold setAdd at hy
  split at hy
  · exact h y hy
  · rcases List.mem_append.1 hy with hy | hy
    · exact h y hy
    · rw [List.mem_singleton.1 hy]; exact hx

theorem only_setRemove {P : α → Prop} {x : α} (l : List α) (h : ∀ y ∈ l, P y) :
    ∀ y ∈ setRemove x l, P y := fun y hy => h y (List.mem_filter.1 hy).1

theorem only_setUnion {P : α → Prop} {l m : List α} (h : ∀ y ∈ l, P y) (k : ∀ y ∈ m, P y) :
    ∀ y ∈ setUnion l m, P y := fun y hy => ((mem_setUnion l m y).1 hy).elim (h y) (k y)

theorem Edits.only {P : α → Prop} {Q : HG α → Bool → α → α → Prop} {t u : HG α} (e : Edits Q t u)
    (hq : ∀ u x r, Q u true x r → P x) (k : t.heap.Only P) : u.heap.Only P := by
  induction e with
  | refl => exact k
  | @step u add x r _ q ih =>
    refine HG.only_upd ih r _ (fun l hl => ?_)
    cases add with
    | true => exact only_setAdd (hq _ _ _ q) l hl
    | false => exact only_setRemove l hl

theorem Oper.only_obj {P : α → Prop} (op : Oper) {h : Heap α} (k : h.Only P) (s c : Addr) :
    (op.obj h s c).1.Only P := by
  have hs := k.read s
  have hc := k.read c
  cases op <;> unfold Oper.obj <;> first | exact k | refine k.append (fun x hx => ?_)
  all_goals simp only [Oper.val, setUnion, List.mem_append, List.mem_filter, List.not_mem_nil] at hx
  all_goals
    first
    | exact hs x hx.1
    | exact hc x hx.1
    | exact hx.elim (hs x) (fun h => hc x h.1)
    | exact hx.elim (fun h => hs x h.1) (fun h => hc x h.1)

namespace OpCond
variable {P : α → Prop}

theorem only_newSenders (c : OpCond α) (owner : α) {s : HG α} (k0 : s.heap.Only P) {h : Heap α}
    (k : h.Only P) : (c.newSenders owner s h).1.Only P := by
  unfold newSenders
  dsimp only
  have k1 : Heap.Only P (h ++ [unionAll (c.nodes.map s.senders)]) := by
    refine k.append (fun x hx => ?_)
    obtain ⟨l, hl, hx⟩ := (mem_unionAll _ _).1 hx
    obtain ⟨n, _, rfl⟩ := List.mem_map.1 hl
    exact HG.only_senders k0 n x hx
  have key : ∀ (l : List α) (acc : Heap α × Dict α Addr), acc.1.Only P →
      (l.foldl (fun acc n =>
        let r := (c.subjectSenders n).obj acc.1 (s.addr n) (s.addr owner)
        (r.1, Dict.set acc.2 n r.2)) acc).1.Only P := by
    intro l
    induction l with
    | nil => intro acc k; exact k
    | cons n l ih => intro acc k; exact ih _ ((c.subjectSenders n).only_obj k _ _)
  exact key _ _ (c.ownerSenders.only_obj k1 _ _)

theorem only_receiverLoop (ns : Dict α Addr) (nr0 : Graph α) (nodes : List α) (nr : Graph α)
    (hnr : ∀ p ∈ nr, P p.1) : ∀ acc : HG α × Bool, acc.1.heap.Only P →
    (nr.foldl (fun acc p => nodes.foldl (receiverStep ns nr0 p.1 p.2) acc) acc).1.heap.Only P := by
  induction nr with
  | nil => intro acc k; exact k
  | cons p nr ih =>
    intro acc k
    refine ih (fun q hq => hnr q (List.mem_cons_of_mem _ hq)) _ ?_
    have hp := hnr p (List.mem_cons_self ..)
    clear ih
    induction nodes generalizing acc with
    | nil => exact k
    | cons n nodes ih =>
      refine ih _ ?_
      unfold receiverStep
      split
      · exact HG.only_upd k n _ (only_setAdd hp)
      · exact HG.only_upd k n _ only_setRemove

theorem only_loopEnd (c : OpCond α) (owner : α) {s : HG α} (k : s.heap.Only P) (ho : P owner)
    (hn : ∀ n ∈ c.nodes, P n) (ha : owner ∉ c.nodes) : (c.loopEnd owner s).1.heap.Only P := by
  refine only_receiverLoop _ _ _ _ (fun p hp => ?_) _ (c.only_newSenders owner k (HG.only_clone k))
  obtain ⟨w, h⟩ := newReceivers_spec c owner s ha
  have hk : p.1 ∈ Dict.keys (c.newReceivers owner s) := List.mem_map.2 ⟨p, hp, rfl⟩
  have := Dict.get?_isSome.2 hk
  rw [h] at this
  by_cases e : p.1 = owner ∨ p.1 ∈ c.nodes
  · rcases e with e | e
    · rw [e]; exact ho
    · exact hn _ e
  · rw [if_neg e] at this; cases this

theorem only_place (c : OpCond α) (owner : α) {s : HG α} (k : s.heap.Only P) (ho : P owner)
    (hn : ∀ n ∈ c.nodes, P n) : (c.place owner s).heap.Only P := by
  unfold place
  cases c.kind with
  | before =>
    dsimp only
    generalize c.nodes = l
    induction l generalizing s with
    | nil => exact k
    | cons n l ih => exact ih (HG.only_upd k n _ (only_setAdd ho))
  | withNode =>
    dsimp only
    split
    · exact k
    · have hu := fun n => only_setUnion (HG.only_senders k owner) (HG.only_senders k n)
      exact HG.only_assign (HG.only_assign k _ (hu _)) _ (hu _)
  | after => exact HG.only_assign k _ (only_setUnion (HG.only_senders k owner) hn)

theorem only_modify (cyc : Graph α → List (List α)) (c : OpCond α) (owner : α) {s t : HG α}
    (hs : s.Ok) (hf : c.Fits owner s) (k : s.heap.Only P) (ho : P owner) (hn : ∀ n ∈ c.nodes, P n)
    (h : c.modify cyc owner s = .ok t) : t.heap.Only P := by
  rcases modify_cases cyc c owner hs hf with ⟨_, e⟩ | ⟨_, _, _, e⟩ | ⟨_, _, u, _, _, _, e, E⟩
  · rw [h] at e; cases e; exact HG.only_clone k
  · rw [h] at e; cases e
  · rw [h] at e; cases e
    refine E.only (fun u x r q => ?_) ?_
    · rcases q with ⟨_, q, _⟩ | ⟨_, q⟩ | q
      · cases q
      · exact absurd q.1 (by simp)
      · have hx : x ∈ Dict.getD s.value owner := q.2.2.2.2.1
        rw [HG.getD_value] at hx
        exact HG.only_senders k owner x hx
    · refine c.only_place owner (c.only_loopEnd owner ?_ ho hn hf.apart) ho hn
      exact (preprocess_edits c owner _).only (fun _ _ _ q => by cases q.1)
        (HG.only_clone (HG.only_clone k))

end OpCond

/-! ## Values -/

/-- Every sender is a key. -/
def Closed (g : Graph α) : Prop := ∀ x r, Edge g x r → x ∈ Dict.keys g

theorem load_only {g : Graph α} (hc : Closed g) : (HG.load g).heap.Only (· ∈ Dict.keys g) := by
  intro v hv x hx
  obtain ⟨p, hp, rfl⟩ := List.mem_map.1 hv
  exact hc x p.1 ⟨p, hp, rfl, hx⟩

theorem GSC.frame (cyc : Graph α → List (List α)) (d : GSC α) (owner : α) {s t : HG α} (hs : s.Ok)
    (hc : owner ∉ d.nodes) (h : d.modifyGraph cyc owner s = .ok t) :
    HFrame s.heap (Dict.keys s.graph) t := by
  cases d with
  | reposition c =>
    obtain ⟨hf, h⟩ := Props.fits_of_ok (c := c) hc h
    exact OpCond.modify_frame cyc c owner hs hf h
  | addEdgeTo n =>
    unfold GSC.modifyGraph at h
    split at h
    · cases h
    · cases h
      exact (HFrame.clone hs).edits (Q := fun _ _ _ _ => True)
        (Edits.refl.step (add := true) (x := owner) (r := n) trivial)
  | removeEdgeFrom n =>
    unfold GSC.modifyGraph at h
    split at h
    · cases h
    · cases h
      exact (HFrame.clone hs).edits (Q := fun _ _ _ _ => True)
        (Edits.refl.step (add := false) (x := n) (r := owner) trivial)

theorem GSC.inGraph_of_ok {cyc : Graph α → List (List α)} {d : GSC α} {owner : α} {s t : HG α}
    (h : d.modifyGraph cyc owner s = .ok t) :
    owner ∈ Dict.keys s.graph ∧ ∀ n ∈ d.nodes, n ∈ Dict.keys s.graph := by
  unfold GSC.modifyGraph at h
  cases hg : d.inGraph owner s with
  | false => rw [hg] at h; simp at h
  | true => simpa [GSC.inGraph] using hg

theorem GSC.only (cyc : Graph α → List (List α)) (d : GSC α) (owner : α) {P : α → Prop} {s t : HG α}
    (hs : s.Ok) (hc : owner ∉ d.nodes) (k : s.heap.Only P) (hp : ∀ n ∈ Dict.keys s.graph, P n)
    (h : d.modifyGraph cyc owner s = .ok t) : t.heap.Only P := by
  obtain ⟨h1, h2⟩ := GSC.inGraph_of_ok h
  cases d with
  | reposition c =>
    obtain ⟨hf, h⟩ := Props.fits_of_ok (c := c) hc h
    exact OpCond.only_modify cyc c owner hs hf k (hp _ h1) (fun n hn => hp _ (h2 n hn)) h
  | addEdgeTo n =>
    unfold GSC.modifyGraph at h
    split at h
    · cases h
    · cases h; exact HG.only_upd (HG.only_clone k) _ _ (only_setAdd (hp _ h1))
  | removeEdgeFrom n =>
    unfold GSC.modifyGraph at h
    split at h
    · cases h
    · cases h; exact HG.only_upd (HG.only_clone k) _ _ only_setRemove

/-- A built-in condition keeps the nodes; the result is a dict again, and if all senders
were nodes they still are. -/
theorem GSC.onValue_spec (cyc : Graph α → List (List α)) (d : GSC α) (owner : α) {g g' : Graph α}
    (hw : Dict.WF g) (hc : owner ∉ d.nodes) (h : d.onValue cyc owner g = .ok g') :
    Dict.WF g' ∧ Dict.keys g' = Dict.keys g ∧ (Closed g → Closed g') := by
  unfold GSC.onValue at h
  cases e : d.modifyGraph cyc owner (HG.load g) with
  | error e' => rw [e] at h; cases h
  | ok t =>
    rw [e] at h; cases h
    have hF := GSC.frame cyc d owner (HG.load_ok hw) hc e
    have hk : Dict.keys t.value = Dict.keys g := by
      rw [HG.keys_value, hF.keys, HG.keys_load]
    refine ⟨HG.wf_value hF.ok, hk, fun hcl x r he => ?_⟩
    have := GSC.only cyc d owner (HG.load_ok hw) hc (load_only hcl)
      (fun n hn => by rw [HG.keys_load] at hn; exact hn) e
    rw [hk]
    exact HG.only_senders this r x ((HG.edge_value hF.ok x r).1 he)

theorem Spec.BuiltIn.apply {cyc : Graph α → List (List α)} {e : α × SCond α} (h : BuiltIn cyc e)
    {g g' : Graph α} (hw : Dict.WF g) (hg : e.2.apply e.1 g = .ok g') :
    Dict.WF g' ∧ Dict.keys g' = Dict.keys g ∧ (Closed g → Closed g') := by
  obtain ⟨d, h1, h2⟩ := h
  rw [h1] at hg
  exact GSC.onValue_spec cyc d e.1 hw h2 hg

theorem composed_builtIn {cyc : Graph α → List (List α)} (es : List (α × SCond α))
    (h : ∀ e ∈ es, BuiltIn cyc e) : ∀ {g g' : Graph α}, Dict.WF g → composed g es = .ok g' →
    Dict.WF g' ∧ Dict.keys g' = Dict.keys g ∧ (Closed g → Closed g') := by
  induction es with
  | nil => intro g g' hw e; cases e; exact ⟨hw, rfl, id⟩
  | cons p es ih =>
    intro g g' hw e
    obtain ⟨n, c⟩ := p
    unfold composed at e
    cases h1 : c.apply n g with
    | error x => rw [h1] at e; cases e
    | ok g1 =>
      rw [h1] at e
      obtain ⟨k1, k2, k3⟩ := (h (n, c) (List.mem_cons_self ..)).apply hw h1
      obtain ⟨j1, j2, j3⟩ := ih (fun e he => h e (List.mem_cons_of_mem _ he)) k1 e
      exact ⟨j1, j2.trans k2, fun hc => j3 (k3 hc)⟩

theorem composed_split (es fs : List (α × SCond α)) {g g' : Graph α}
    (h : composed g (es ++ fs) = .ok g') :
    ∃ g1, composed g es = .ok g1 ∧ composed g1 fs = .ok g' := by
  rw [composed_append] at h
  cases e : composed g es with
  | error x => rw [e] at h; cases h
  | ok g1 => rw [e] at h; exact ⟨g1, rfl, h⟩

end GS

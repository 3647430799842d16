import Verif.RenameRun
import Verif.Spec.RenameStack
/-!
# Renaming nodes: the built-in structural conditions
-/

set_option linter.unusedSectionVars false

namespace GS
open Spec
variable {α β κ W : Type _} [DecidableEq α] [DecidableEq β] [DecidableEq κ]

/-- A graph with set objects, with other names. -/
def renameHG (r : Renaming α β) (s : HG α) : HG β :=
  ⟨renameSets r s.heap, renameDict r id s.graph⟩

theorem foldl_rename {γ δ ε ζ : Type _} {φ : γ → δ} {ψ : ε → ζ} {f : γ → ε → γ} {f' : δ → ζ → δ}
    (h : ∀ a x, f' (φ a) (ψ x) = φ (f a x)) (l : List ε) (a : γ) :
    (l.map ψ).foldl f' (φ a) = φ (l.foldl f a) := by
  induction l generalizing a with
  | nil => rfl
  | cons x l ih => rw [List.map_cons, List.foldl_cons, List.foldl_cons, h, ih]

theorem foldl_same {γ δ ε : Type _} {φ : γ → δ} {f : γ → ε → γ} {f' : δ → ε → δ}
    (h : ∀ a x, f' (φ a) x = φ (f a x)) (l : List ε) (a : γ) :
    l.foldl f' (φ a) = φ (l.foldl f a) := by
  have := foldl_rename (ψ := id) (φ := φ) (f := f) (f' := f') h l a
  rwa [List.map_id] at this

section
variable (r : Renaming α β)

theorem decide_mem (x : α) (l : List α) : decide (r.to x ∈ l.map r.to) = decide (x ∈ l) := by
  simp only [r.mem]

theorem setAdd_rename (x : α) (l : List α) : setAdd (r.to x) (l.map r.to) = (setAdd x l).map r.to := by
  unfold setAdd
  simp only [r.mem]
  split
  · rfl
  · simp

theorem setRemove_rename (x : α) (l : List α) :
    setRemove (r.to x) (l.map r.to) = (setRemove x l).map r.to := by
  unfold setRemove
  exact filter_rename r.to (fun y => decide (y ≠ x)) _ (fun y => by simp [r.inj]) _

theorem setUnion_rename (l m : List α) :
    setUnion (l.map r.to) (m.map r.to) = (setUnion l m).map r.to := by
  unfold setUnion
  rw [List.map_append]
  congr 1
  exact filter_rename r.to (fun x => decide (x ∉ l)) _ (fun x => by simp [r.inj]) _

theorem unionAll_rename (ls : List (List α)) :
    unionAll (renameSets r ls) = (unionAll ls).map r.to := by
  unfold unionAll renameSets
  exact foldl_rename (φ := List.map r.to) (ψ := List.map r.to) (fun a x => setUnion_rename r a x) ls []

theorem val_rename (op : Oper) (l m : List α) :
    op.val (l.map r.to) (m.map r.to) = (op.val l m).map r.to := by
  have h1 : ∀ a b : List α, (a.map r.to).filter (fun x => decide (x ∈ b.map r.to)) =
      (a.filter (fun x => decide (x ∈ b))).map r.to := fun a b =>
    filter_rename r.to (fun x => decide (x ∈ b)) _ (fun x => by simp [r.inj]) _
  have h2 : ∀ a b : List α, (a.map r.to).filter (fun x => decide (x ∉ b.map r.to)) =
      (a.filter (fun x => decide (x ∉ b))).map r.to := fun a b =>
    filter_rename r.to (fun x => decide (x ∉ b)) _ (fun x => by simp [r.inj]) _
  cases op <;> simp only [Oper.val, setUnion_rename, h1, h2, List.map_append, List.map_nil]

theorem get?_renameDict {γ δ : Type _} (f : γ → δ) (d : Dict α γ) (k : α) :
    Dict.get? (renameDict r f d) (r.to k) = (Dict.get? d k).map f := get?_keys r f d k

theorem set_renameDict {γ δ : Type _} (f : γ → δ) (d : Dict α γ) (k : α) (v : γ) :
    Dict.set (renameDict r f d) (r.to k) (f v) = renameDict r f (Dict.set d k v) :=
  (keys_set r f d k v).symm

theorem keys_renameDict {γ δ : Type _} (f : γ → δ) (d : Dict α γ) :
    Dict.keys (renameDict r f d) = (Dict.keys d).map r.to := by
  unfold renameDict Dict.keys
  simp [List.map_map, Function.comp_def]

theorem getD_rename (g : Graph α) (k : α) :
    Dict.getD (renameGraph r g) (r.to k) = (Dict.getD g k).map r.to := by
  unfold Dict.getD
  have : Dict.get? (renameGraph r g) (r.to k) = _ := get?_keys r (List.map r.to) g k
  rw [this]
  cases Dict.get? g k <;> rfl

theorem setGraph_rename (g : Graph α) (k : α) (v : List α) :
    Dict.set (renameGraph r g) (r.to k) (v.map r.to) = renameGraph r (Dict.set g k v) :=
  (keys_set r (List.map r.to) g k v).symm

theorem getReceivers_rename (g : Graph α) :
    getReceivers (renameGraph r g) = renameGraph r (getReceivers g) := by
  unfold getReceivers
  have h0 : (Dict.keys (renameGraph r g)).map (fun n => (n, ([] : List β))) =
      renameGraph r ((Dict.keys g).map fun n => (n, [])) := by
    rw [keys_rename]; unfold renameGraph; simp [List.map_map, Function.comp_def]
  rw [h0]
  refine foldl_rename (φ := renameGraph r) (ψ := fun p : α × List α => (r.to p.1, p.2.map r.to))
    (fun rs p => ?_) g _
  refine foldl_rename (φ := renameGraph r) (ψ := r.to) (fun rs s => ?_) p.2 _
  unfold addReceiver
  rw [getD_rename, setAdd_rename, setGraph_rename]

theorem nxReverse_rename (g : Graph α) :
    nxReverse (renameGraph r g) = renameGraph r (nxReverse g) := by
  unfold nxReverse
  rw [keys_rename]
  unfold renameGraph
  rw [List.map_map, List.map_map]
  apply List.map_congr_left
  intro p _
  refine Prod.ext rfl ?_
  refine filter_rename r.to (fun u => decide (p.1 ∈ Dict.getD g u)) _ (fun u => ?_) _
  show decide (r.to p.1 ∈ Dict.getD (renameGraph r g) (r.to u)) = _
  rw [getD_rename, decide_mem]

theorem toNx_rename (g : Graph α) : toNx (renameGraph r g) = renameGraph r (toNx g) := by
  unfold toNx nxOfDict
  rw [addExtra_rename, nxReverse_rename]

theorem bfs_rename (g : Graph α) (x : α) : ∀ k, bfs (renameGraph r g) (r.to x) k = (bfs g x k).map r.to
  | 0 => rfl
  | k + 1 => by
    unfold bfs bfsStep
    rw [bfs_rename g x k, keys_rename]
    refine filter_rename r.to (fun u => decide (u ∈ Dict.getD g x) ||
      (bfs g x k).any fun s => decide (u ∈ Dict.getD g s)) _ (fun u => ?_) _
    rw [getD_rename, decide_mem, List.any_map]
    congr 2
    funext s
    show decide (r.to u ∈ Dict.getD (renameGraph r g) (r.to s)) = _
    rw [getD_rename, decide_mem]

theorem nxDescendants_rename (g : Graph α) (x : α) :
    nxDescendants (renameGraph r g) (r.to x) = (nxDescendants g x).map r.to := by
  unfold nxDescendants
  have : (renameGraph r g).length = g.length := List.length_map _
  rw [this, bfs_rename, setRemove_rename]

theorem getDescendants_rename (g : Graph α) :
    getDescendants (renameGraph r g) = renameGraph r (getDescendants g) := by
  unfold getDescendants
  rw [keys_rename, toNx_rename, List.map_map]
  unfold renameGraph
  rw [List.map_map]
  apply List.map_congr_left
  intro n _
  exact Prod.ext rfl (nxDescendants_rename r _ n)

theorem getAncestors_rename (g : Graph α) :
    getAncestors (renameGraph r g) = renameGraph r (getAncestors g) := by
  unfold getAncestors nxAncestors
  rw [keys_rename, toNx_rename, nxReverse_rename, List.map_map]
  unfold renameGraph
  rw [List.map_map]
  apply List.map_congr_left
  intro n _
  exact Prod.ext rfl (nxDescendants_rename r _ n)

/-! ## Set objects -/

theorem read_rename (h : Heap α) (a : Addr) : Heap.read (renameSets r h) a = (Heap.read h a).map r.to := by
  unfold Heap.read renameSets
  rw [List.getElem?_map]
  cases h[a]? <;> rfl

theorem append_rename (h : Heap α) (v : List α) :
    renameSets r h ++ [v.map r.to] = renameSets r (h ++ [v]) := by
  unfold renameSets; simp

theorem length_renameSets (h : List (List α)) : (renameSets r h).length = h.length := List.length_map _

theorem addr_rename (s : HG α) (n : α) : (renameHG r s).addr (r.to n) = s.addr n := by
  unfold HG.addr renameHG
  simp only [get?_renameDict]
  cases Dict.get? s.graph n <;> rfl

theorem senders_rename (s : HG α) (n : α) : (renameHG r s).senders (r.to n) = (s.senders n).map r.to := by
  unfold HG.senders renameHG
  simp only [get?_renameDict]
  cases Dict.get? s.graph n with
  | none => rfl
  | some a => exact read_rename r s.heap a

theorem upd_rename (s : HG α) (n : α) {f : List α → List α} {f' : List β → List β}
    (h : ∀ l, f' (l.map r.to) = (f l).map r.to) : (renameHG r s).upd (r.to n) f' = renameHG r (s.upd n f) := by
  unfold HG.upd renameHG
  simp only [get?_renameDict]
  cases Dict.get? s.graph n with
  | none => rfl
  | some a =>
    simp only [Option.map_some, id_eq, read_rename, h]
    unfold renameSets
    rw [List.map_set]

theorem assign_rename (s : HG α) (n : α) (v : List α) :
    (renameHG r s).assign (r.to n) (v.map r.to) = renameHG r (s.assign n v) := by
  unfold HG.assign renameHG
  simp only [append_rename, length_renameSets]
  congr 1
  exact set_renameDict r id s.graph n s.heap.length

theorem value_rename (s : HG α) : (renameHG r s).value = renameGraph r s.value := by
  unfold HG.value renameHG renameGraph renameDict
  rw [List.map_map, List.map_map]
  apply List.map_congr_left
  intro p _
  exact Prod.ext rfl (read_rename r s.heap p.2)

theorem cloneFrom_rename : ∀ (g : Dict α Addr) (h : Heap α),
    HG.cloneFrom (renameSets r h) (renameDict r id g) = renameHG r (HG.cloneFrom h g)
  | [], _ => rfl
  | (k, a) :: g, h => by
    show HG.cloneFrom (renameSets r h) ((r.to k, a) :: renameDict r id g) = _
    unfold HG.cloneFrom
    rw [read_rename, append_rename, cloneFrom_rename g, length_renameSets]
    rfl

theorem clone_rename (s : HG α) : (renameHG r s).clone = renameHG r s.clone := cloneFrom_rename r _ _

theorem load_rename (g : Graph α) : HG.load (renameGraph r g) = renameHG r (HG.load g) := by
  unfold HG.load renameHG
  rw [keys_rename]
  congr 1
  · unfold renameGraph renameSets
    rw [List.map_map, List.map_map]
    rfl
  · unfold renameDict
    rw [List.zipIdx_map]
    rfl

theorem keysHG_rename (s : HG α) : Dict.keys (renameHG r s).graph = (Dict.keys s.graph).map r.to :=
  keys_renameDict r id s.graph

theorem obj_rename (op : Oper) (h : Heap α) (s c : Addr) :
    op.obj (renameSets r h) s c = (renameSets r (op.obj h s c).1, (op.obj h s c).2) := by
  cases op <;> simp only [Oper.obj, read_rename, val_rename, append_rename, length_renameSets]

end

/-! ## Repositioning conditions -/

namespace OpCond
variable (r : Renaming α β) (c : OpCond α) (owner : α)

theorem valid_rename (s : HG α) (n : α) :
    (renameOpCond r c).valid (r.to owner) (renameHG r s) (r.to n) = c.valid owner s n := by
  unfold valid
  show (match c.kind with | .before => _ | .withNode => _ | .after => _) = _
  cases c.kind <;> simp only [senders_rename, decide_mem, List.all_map, Function.comp_def]

theorem required_rename (x y : α) :
    (renameOpCond r c).required (r.to owner) (r.to x) (r.to y) = c.required owner x y := by
  unfold required
  show (match c.kind with | .before => _ | .withNode => _ | .after => _) = _
  have hn : (renameOpCond r c).nodes = c.nodes.map r.to := rfl
  rw [hn]
  cases c.kind <;> simp only [r.mem, r.inj]

theorem preprocess_rename (s : HG α) :
    (renameOpCond r c).preprocess (r.to owner) (renameHG r s) = renameHG r (c.preprocess owner s) := by
  unfold preprocess
  refine foldl_rename (φ := renameHG r) (ψ := r.to) (fun s n => ?_) c.nodes s
  rw [upd_rename r s n (setRemove_rename r owner), upd_rename r _ owner (setRemove_rename r n)]

/-- A heap and a dict into it, with other names. -/
def renameHeap (r : Renaming α β) (x : Heap α × Dict α Addr) : Heap β × Dict β Addr :=
  (renameSets r x.1, renameDict r id x.2)

theorem newSenders_rename (s : HG α) (h : Heap α) :
    (renameOpCond r c).newSenders (r.to owner) (renameHG r s) (renameSets r h) =
      renameHeap r (c.newSenders owner s h) := by
  unfold newSenders
  have hn : (renameOpCond r c).nodes = c.nodes.map r.to := rfl
  have ho : (renameOpCond r c).ownerSenders = c.ownerSenders := rfl
  have hu : ((renameOpCond r c).nodes.map (renameHG r s).senders) = renameSets r (c.nodes.map s.senders) := by
    rw [hn]; unfold renameSets; rw [List.map_map, List.map_map]
    exact List.map_congr_left fun n _ => senders_rename r s n
  simp only [hu, unionAll_rename, append_rename, ho, addr_rename, obj_rename, length_renameSets]
  rw [hn]
  refine foldl_rename (φ := renameHeap r) (ψ := r.to) (fun acc n => ?_) c.nodes
    ((c.ownerSenders.obj (h ++ [unionAll (c.nodes.map s.senders)]) (s.addr owner) h.length).1,
      [(owner, (c.ownerSenders.obj (h ++ [unionAll (c.nodes.map s.senders)]) (s.addr owner) h.length).2)])
  have hs : (renameOpCond r c).subjectSenders (r.to n) = c.subjectSenders n := by
    show c.subjectSenders (r.back (r.to n)) = _; rw [r.back_to]
  show (let q := ((renameOpCond r c).subjectSenders (r.to n)).obj (renameSets r acc.1) _ _
    (q.1, Dict.set (renameDict r id acc.2) (r.to n) q.2)) = _
  simp only [hs, addr_rename, obj_rename]
  exact Prod.ext rfl (set_renameDict r id acc.2 n _)

theorem newReceivers_rename (s : HG α) :
    (renameOpCond r c).newReceivers (r.to owner) (renameHG r s) = renameGraph r (c.newReceivers owner s) := by
  unfold newReceivers
  have hn : (renameOpCond r c).nodes = c.nodes.map r.to := rfl
  have ho : (renameOpCond r c).ownerReceivers = c.ownerReceivers := rfl
  simp only [value_rename, getReceivers_rename, getD_rename]
  have hu : ((renameOpCond r c).nodes.map fun n => Dict.getD (renameGraph r (getReceivers s.value)) n) =
      renameSets r (c.nodes.map fun n => Dict.getD (getReceivers s.value) n) := by
    rw [hn]; unfold renameSets; rw [List.map_map, List.map_map]
    exact List.map_congr_left fun n _ => getD_rename r _ n
  rw [hu, unionAll_rename, ho, val_rename, hn]
  refine foldl_rename (φ := renameGraph r) (ψ := r.to) (fun acc n => ?_) c.nodes
    [(owner, c.ownerReceivers.val (Dict.getD (getReceivers s.value) owner)
      (unionAll (c.nodes.map fun n => Dict.getD (getReceivers s.value) n)))]
  have hs : (renameOpCond r c).subjectReceivers (r.to n) = c.subjectReceivers n := by
    show c.subjectReceivers (r.back (r.to n)) = _; rw [r.back_to]
  rw [hs, getD_rename, val_rename, setGraph_rename]

theorem edgeConflict_rename (ns : Dict α Addr) (h : Heap α) (nr : Graph α) (x y : α) :
    edgeConflict (renameDict r id ns) (renameSets r h) (renameGraph r nr) (r.to x) (r.to y) =
      edgeConflict ns h nr x y := by
  unfold edgeConflict
  have hs : HG.senders ⟨renameSets r h, renameDict r id ns⟩ (r.to y) = (HG.senders ⟨h, ns⟩ y).map r.to :=
    senders_rename r ⟨h, ns⟩ y
  simp only [hs, keys_renameDict, keys_rename, getD_rename, r.mem]

theorem firstConflicts_rename (ns : Dict α Addr) (h : Heap α) (nr : Graph α) :
    firstConflicts (renameDict r id ns) (renameSets r h) (renameGraph r nr) = firstConflicts ns h nr := by
  unfold firstConflicts
  show ((ns.map fun p => (r.to p.1, id p.2)).any _) = _
  rw [List.any_map]
  congr 1
  funext p
  show (Heap.read (renameSets r h) p.2).any _ = _
  rw [read_rename, List.any_map]
  congr 1
  funext x
  exact edgeConflict_rename r ns h nr x p.1

/-- A graph and a flag, with other names. -/
def renameFlag (r : Renaming α β) (x : HG α × Bool) : HG β × Bool := (renameHG r x.1, x.2)

theorem receiverStep_rename (ns : Dict α Addr) (nr : Graph α) (x : α) (rs : List α) (acc : HG α × Bool)
    (n : α) : receiverStep (renameDict r id ns) (renameGraph r nr) (r.to x) (rs.map r.to)
      (renameFlag r acc) (r.to n) = renameFlag r (receiverStep ns nr x rs acc n) := by
  unfold receiverStep
  simp only [r.mem]
  split
  · refine Prod.ext (upd_rename r acc.1 n (setAdd_rename r x)) ?_
    show (acc.2 || edgeConflict (renameDict r id ns) (renameSets r acc.1.heap) (renameGraph r nr)
      (r.to x) (r.to n)) = _
    rw [edgeConflict_rename]; rfl
  · exact Prod.ext (upd_rename r acc.1 n (setRemove_rename r x)) rfl

theorem receiverLoop_rename (ns : Dict α Addr) (nr : Graph α) (nodes : List α) (acc : HG α × Bool) :
    receiverLoop (renameDict r id ns) (renameGraph r nr) (nodes.map r.to) (renameFlag r acc) =
      renameFlag r (receiverLoop ns nr nodes acc) := by
  unfold receiverLoop
  refine foldl_rename (φ := renameFlag r) (ψ := fun p : α × List α => (r.to p.1, p.2.map r.to))
    (fun acc p => ?_) nr acc
  exact foldl_rename (φ := renameFlag r) (ψ := r.to)
    (fun acc n => receiverStep_rename r ns nr p.1 p.2 acc n) nodes acc

theorem operate_rename (s : HG α) :
    (renameOpCond r c).operate (r.to owner) (renameHG r s) =
      renameOk (renameHG r) (c.operate owner s) := by
  unfold operate
  have hi : (renameOpCond r c).ignoreConflicts = c.ignoreConflicts := rfl
  have hh : (renameHG r s.clone).heap = renameSets r s.clone.heap := rfl
  have hg : (renameHG r s.clone).graph = renameDict r id s.clone.graph := rfl
  simp only [newReceivers_rename, clone_rename, hh, hg, newSenders_rename, keysHG_rename, hi]
  have h1 : (renameHeap r (c.newSenders owner s s.clone.heap)).1 =
    renameSets r (c.newSenders owner s s.clone.heap).1 := rfl
  have h2 : (renameHeap r (c.newSenders owner s s.clone.heap)).2 =
    renameDict r id (c.newSenders owner s s.clone.heap).2 := rfl
  rw [h1, h2]
  generalize hns : c.newSenders owner s s.clone.heap = ns
  have h3 : (renameDict r id ns.2).foldl (fun g p => Dict.set g p.1 p.2) (renameDict r id s.clone.graph) =
      renameDict r id (ns.2.foldl (fun g p => Dict.set g p.1 p.2) s.clone.graph) :=
    foldl_rename (φ := renameDict r (id : Addr → Addr)) (ψ := fun p : α × Addr => (r.to p.1, id p.2))
      (fun g p => set_renameDict r id g p.1 p.2) ns.2 _
  rw [h3, firstConflicts_rename]
  have h4 := receiverLoop_rename r ns.2 (c.newReceivers owner s) (Dict.keys s.graph)
    (⟨ns.1, ns.2.foldl (fun g p => Dict.set g p.1 p.2) s.clone.graph⟩,
      firstConflicts ns.2 ns.1 (c.newReceivers owner s))
  have h5 : renameFlag r ((⟨ns.1, ns.2.foldl (fun g p => Dict.set g p.1 p.2) s.clone.graph⟩ : HG α),
      firstConflicts ns.2 ns.1 (c.newReceivers owner s)) =
      (⟨renameSets r ns.1, renameDict r id (ns.2.foldl (fun g p => Dict.set g p.1 p.2) s.clone.graph)⟩,
      firstConflicts ns.2 ns.1 (c.newReceivers owner s)) := rfl
  rw [h5] at h4
  rw [h4]
  unfold renameFlag
  simp only
  split <;> rfl

theorem place_rename (s : HG α) :
    (renameOpCond r c).place (r.to owner) (renameHG r s) = renameHG r (c.place owner s) := by
  unfold place
  have hk : (renameOpCond r c).kind = c.kind := rfl
  have hn : (renameOpCond r c).nodes = c.nodes.map r.to := rfl
  rw [hk, hn]
  cases c.kind with
  | before =>
    exact foldl_rename (φ := renameHG r) (ψ := r.to)
      (fun s n => upd_rename r s n (setAdd_rename r owner)) c.nodes s
  | withNode =>
    cases c.nodes with
    | nil => rfl
    | cons n ns =>
      simp only [List.map_cons, senders_rename, setUnion_rename, assign_rename]
  | after => simp only [senders_rename, setUnion_rename, assign_rename]

theorem removeNewSelf_rename (base : Graph α) (s : HG α) :
    removeNewSelf (renameGraph r base) (renameHG r s) = renameHG r (removeNewSelf base s) := by
  unfold removeNewSelf
  rw [keysHG_rename]
  refine foldl_rename (φ := renameHG r) (ψ := r.to) (fun s n => ?_) _ s
  simp only [getD_rename, senders_rename, r.mem]
  split
  · split
    · exact upd_rename r s n (setRemove_rename r n)
    · rfl
  · rfl

theorem cut_rename (s : HG α) (x y : α) :
    cut (renameHG r s) (r.to x) (r.to y) = renameHG r (cut s x y) := by
  unfold cut
  simp only [senders_rename, r.mem]
  split
  · exact upd_rename r s y (setRemove_rename r x)
  · rfl

theorem toCheck_rename (cycle : List α) :
    (renameOpCond r c).toCheck (cycle.map r.to) = (c.toCheck cycle).map r.to := by
  unfold toCheck
  have hn : (renameOpCond r c).nodes = c.nodes.map r.to := rfl
  have hf : (c.nodes.map r.to).filter (fun n => decide (n ∈ cycle.map r.to)) =
      (c.nodes.filter fun n => decide (n ∈ cycle)).map r.to :=
    filter_rename r.to (fun n => decide (n ∈ cycle)) _ (fun n => by simp only [r.mem]) _
  rw [hn, hf, List.length_map]
  split <;> rfl

theorem at_rename (cycle : List α) (i : Nat) :
    ((cycle.map r.to)[i]?).getD (r.to owner) = r.to ((cycle[i]?).getD owner) := by
  rw [List.getElem?_map]
  cases cycle[i]? <;> rfl

theorem pruneOwnerEdge_rename (base : Graph α) (i : Nat) (cycle : List α) (s : HG α) :
    (renameOpCond r c).pruneOwnerEdge (r.to owner) (renameGraph r base) i (cycle.map r.to) (renameHG r s) =
      renameHG r (c.pruneOwnerEdge owner base i cycle s) := by
  unfold pruneOwnerEdge
  simp only [toCheck_rename, List.all_map, Function.comp_def, getAncestors_rename, getDescendants_rename,
    getD_rename, r.mem, List.length_map, at_rename]
  generalize (((c.toCheck cycle).all fun n => decide (owner ∈ Dict.getD (getAncestors base) n)) ||
    !(c.toCheck cycle).all fun n => decide (owner ∈ Dict.getD (getDescendants base) n)) = b
  cases b
  · simp only [Bool.false_eq_true, if_false, required_rename, cut_rename]
    split <;> rfl
  · simp only [if_true, required_rename, cut_rename]
    split <;> rfl

theorem pruneEdge_rename (base : Graph α) (cycle : List α) (s : HG α) (i : Nat) :
    (renameOpCond r c).pruneEdge (r.to owner) (renameGraph r base) (cycle.map r.to) (renameHG r s) i =
      renameHG r (c.pruneEdge owner base cycle s i) := by
  unfold pruneEdge
  simp only [List.length_map, at_rename, r.inj, getD_rename, r.mem, required_rename,
    pruneOwnerEdge_rename, cut_rename, ne_eq]
  split
  · rfl
  · split <;> rfl

theorem pruneCycle_rename (base : Graph α) (cycle : List α) (s : HG α) :
    (renameOpCond r c).pruneCycle (r.to owner) (renameGraph r base) (cycle.map r.to) (renameHG r s) =
      renameHG r (c.pruneCycle owner base cycle s) := by
  unfold pruneCycle
  rw [List.length_map]
  exact foldl_same (φ := renameHG r) (fun s i => pruneEdge_rename r c owner base cycle s i) _ s

theorem insertCycle_rename (x : List α) : ∀ cs : List (List α),
    insertCycle (x.map r.to) (renameSets r cs) = renameSets r (insertCycle x cs)
  | [] => rfl
  | d :: ds => by
    show insertCycle (x.map r.to) (d.map r.to :: renameSets r ds) = _
    unfold insertCycle
    simp only [List.length_map, insertCycle_rename x ds]
    split <;> rfl

theorem sortCycles_rename (cs : List (List α)) :
    sortCycles (renameSets r cs) = renameSets r (sortCycles cs) :=
  foldl_rename (φ := renameSets r) (ψ := List.map r.to) (fun acc x => insertCycle_rename r x acc) cs []

theorem map_inj {l m : List α} : l.map r.to = m.map r.to ↔ l = m :=
  ⟨fun h => by rw [← r.map_back l, h, r.map_back], fun h => h ▸ rfl⟩

theorem sets_inj {l m : List (List α)} : renameSets r l = renameSets r m ↔ l = m :=
  ⟨fun h => by rw [← r.sets_back l, h, r.sets_back], fun h => h ▸ rfl⟩

theorem mem_sets {x : List α} {l : List (List α)} : x.map r.to ∈ renameSets r l ↔ x ∈ l := by
  unfold renameSets
  rw [List.mem_map]
  exact ⟨fun ⟨y, h1, h2⟩ => (map_inj r).1 h2 ▸ h1, fun h => ⟨x, h, rfl⟩⟩

variable (cyc : Graph α → List (List α))

theorem cyc_rename (g : Graph α) : renameCyc r cyc (renameGraph r g) = renameSets r (cyc g) := by
  unfold renameCyc; rw [r.graph_back]

/-- A graph and cycles, with other names. -/
def renameRound (r : Renaming α β) (x : HG α × List (List α)) : HG β × List (List β) :=
  (renameHG r x.1, renameSets r x.2)

theorem pruneRound_rename (base : Graph α) (todo : List (List α)) (s : HG α) :
    (renameOpCond r c).pruneRound (renameCyc r cyc) (r.to owner) (renameGraph r base) (renameSets r todo)
      (renameHG r s) = renameRound r (c.pruneRound cyc owner base todo s) := by
  unfold pruneRound
  have h0 : (renameHG r s, renameCyc r cyc (renameHG r s).value) = renameRound r (s, cyc s.value) := by
    rw [value_rename, cyc_rename]; rfl
  rw [h0]
  refine foldl_rename (φ := renameRound r) (ψ := List.map r.to) (fun acc x => ?_) todo _
  have : x.map r.to ∈ (renameRound r acc).2 ↔ x ∈ acc.2 := mem_sets r
  simp only [this]
  split
  · have h1 : (renameRound r acc).1 = renameHG r acc.1 := rfl
    rw [h1, pruneCycle_rename, value_rename, cyc_rename]; rfl
  · rfl

theorem pruneLoop_rename (base : Graph α) : ∀ (fuel : Nat) (prev : List (List α)) (s : HG α),
    (renameOpCond r c).pruneLoop (renameCyc r cyc) (r.to owner) (renameGraph r base) fuel (renameSets r prev)
      (renameHG r s) = renameOk (renameHG r) (c.pruneLoop cyc owner base fuel prev s)
  | 0, _, _ => rfl
  | fuel + 1, prev, s => by
    unfold pruneLoop
    have h0 : renameSets r prev = [] ↔ prev = [] := sets_inj r (m := [])
    simp only [h0, sortCycles_rename, pruneRound_rename]
    split
    · rfl
    · have h1 : renameSets r prev = (renameRound r (c.pruneRound cyc owner base (sortCycles prev) s)).2 ↔
          prev = (c.pruneRound cyc owner base (sortCycles prev) s).2 := sets_inj r
      simp only [h1]
      split
      · rfl
      · exact pruneLoop_rename base fuel _ _

theorem heapSize_rename (h : Heap α) : heapSize (renameSets r h) = heapSize h := by
  unfold heapSize renameSets
  rw [List.map_map]
  congr 1
  apply List.map_congr_left
  intro x _
  exact List.length_map _

theorem pruneCycles_rename (base : Graph α) (s : HG α) :
    (renameOpCond r c).pruneCycles (renameCyc r cyc) (r.to owner) (renameGraph r base) (renameHG r s) =
      renameOk (renameHG r) (c.pruneCycles cyc owner base s) := by
  unfold pruneCycles
  have h1 : (renameOpCond r c).prune = c.prune := rfl
  have h2 : (renameHG r s).heap = renameSets r s.heap := rfl
  rw [h1, h2, heapSize_rename, value_rename, cyc_rename, pruneLoop_rename]
  split <;> rfl

theorem reconnectStep_rename (base : Graph α) (x : α) (s : HG α) (y : α) :
    (renameOpCond r c).reconnectStep (r.to owner) (renameGraph r base) (r.to x) (renameHG r s) (r.to y) =
      renameHG r (c.reconnectStep owner base x s y) := by
  unfold reconnectStep
  have hn : (renameOpCond r c).nodes = c.nodes.map r.to := rfl
  simp only [hn, getD_rename, senders_rename, value_rename, getDescendants_rename, r.mem]
  split
  · exact upd_rename r s y (setAdd_rename r x)
  · rfl

theorem reconnectAll_rename (base : Graph α) (s : HG α) :
    (renameOpCond r c).reconnectAll (r.to owner) (renameGraph r base) (renameHG r s) =
      renameHG r (c.reconnectAll owner base s) := by
  unfold reconnectAll
  have h1 : (renameOpCond r c).reconnect = c.reconnect := rfl
  rw [h1, getD_rename, getReceivers_rename, getD_rename]
  split
  · refine foldl_rename (φ := renameHG r) (ψ := r.to) (fun s x => ?_) _ s
    exact foldl_rename (φ := renameHG r) (ψ := r.to)
      (fun s y => reconnectStep_rename r c owner base x s y) _ s
  · rfl

theorem postprocess_rename (base : Graph α) (s : HG α) :
    (renameOpCond r c).postprocess (renameCyc r cyc) (r.to owner) (renameGraph r base) (renameHG r s) =
      renameOk (renameHG r) (c.postprocess cyc owner base s) := by
  unfold postprocess
  have h1 : (renameOpCond r c).removeSelf = c.removeSelf := rfl
  have h2 : (if c.removeSelf then removeNewSelf (renameGraph r base) (renameHG r s) else renameHG r s) =
      renameHG r (if c.removeSelf then removeNewSelf base s else s) := by
    rw [removeNewSelf_rename]; split <;> rfl
  rw [h1, h2, pruneCycles_rename]
  cases c.pruneCycles cyc owner base (if c.removeSelf then removeNewSelf base s else s) with
  | error e => rfl
  | ok t => exact congrArg Except.ok (reconnectAll_rename r c owner base t)

theorem transform_rename (s : HG α) :
    (renameOpCond r c).transform (renameCyc r cyc) (r.to owner) (renameHG r s) =
      renameOk (renameHG r) (c.transform cyc owner s) := by
  unfold transform
  rw [clone_rename, preprocess_rename, operate_rename]
  cases c.operate owner (c.preprocess owner s.clone) with
  | error e => rfl
  | ok t =>
    show (renameOpCond r c).postprocess (renameCyc r cyc) (r.to owner) (renameHG r s).value
      ((renameOpCond r c).place (r.to owner) (renameHG r t)) = _
    rw [value_rename, place_rename, postprocess_rename]

theorem modify_rename (s : HG α) :
    (renameOpCond r c).modify (renameCyc r cyc) (r.to owner) (renameHG r s) =
      renameOk (renameHG r) (c.modify cyc owner s) := by
  unfold modify
  have hn : (renameOpCond r c).nodes = c.nodes.map r.to := rfl
  have hf : (c.nodes.map r.to).filter ((renameOpCond r c).valid (r.to owner) (renameHG r s.clone)) =
      (c.nodes.filter (c.valid owner s.clone)).map r.to :=
    filter_rename r.to (c.valid owner s.clone) _ (fun n => valid_rename r c owner s.clone n) _
  rw [clone_rename, hn, hf, List.length_map, List.length_map, transform_rename]
  split <;> rfl

end OpCond

/-! ## All built-in classes -/

section
variable (r : Renaming α β) (cyc : Graph α → List (List α))

theorem modifyGraph_rename (d : GSC α) (owner : α) (s : HG α) :
    (renameGSC r d).modifyGraph (renameCyc r cyc) (r.to owner) (renameHG r s) =
      renameOk (renameHG r) (d.modifyGraph cyc owner s) := by
  have hi : (renameGSC r d).inGraph (r.to owner) (renameHG r s) = d.inGraph owner s := by
    unfold GSC.inGraph
    have hn : r.to owner :: (renameGSC r d).nodes = (owner :: d.nodes).map r.to := by
      cases d <;> rfl
    rw [hn, List.all_map, keysHG_rename]
    congr 1
    funext n
    show decide (r.to n ∈ (Dict.keys s.graph).map r.to) = _
    rw [decide_mem]
  unfold GSC.modifyGraph
  rw [hi]
  split
  · rfl
  · cases d with
    | reposition c => exact OpCond.modify_rename r c owner cyc s
    | addEdgeTo n =>
      show Except.ok ((renameHG r s).clone.upd (r.to n) (setAdd (r.to owner))) = _
      rw [clone_rename, upd_rename r _ n (setAdd_rename r owner)]; rfl
    | removeEdgeFrom n =>
      show Except.ok ((renameHG r s).clone.upd (r.to owner) (setRemove (r.to n))) = _
      rw [clone_rename, upd_rename r _ owner (setRemove_rename r n)]; rfl

theorem onValue_rename (d : GSC α) (owner : α) (g : Graph α) :
    (renameGSC r d).onValue (renameCyc r cyc) (r.to owner) (renameGraph r g) =
      renameOk (renameGraph r) (d.onValue cyc owner g) := by
  unfold GSC.onValue
  rw [load_rename, modifyGraph_rename]
  cases d.modifyGraph cyc owner (HG.load g) with
  | error e => rfl
  | ok s => exact congrArg Except.ok (value_rename r s)

theorem graph_to (g : Graph β) : renameGraph r (renameGraph r.symm g) = g := r.symm.graph_back g

/-- The renamed object of a built-in class is the object of the renamed condition. -/
theorem toSCond_rename (d : GSC α) (o : OId) :
    renameSCond r (d.toSCond cyc o) = (renameGSC r d).toSCond (renameCyc r cyc) o := by
  unfold renameSCond GSC.toSCond
  congr 1
  · cases d <;> rfl
  · funext n g
    have := onValue_rename r cyc d (r.back n) (renameGraph r.symm g)
    rw [r.to_back, graph_to] at this
    exact this.symm

end
end GS

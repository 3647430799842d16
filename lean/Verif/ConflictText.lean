import Verif.GSCMod
/-!
# The message about conflicting operations

`_get_edge_conflicts` builds the texts of the message as it finds conflicts, and joins the
neighbours of the nodes with `','.join`. `isStr` says which nodes are texts.
-/

set_option linter.unusedSectionVars false

namespace GS
open Spec
variable {α : Type _} [DecidableEq α]

namespace OpCond

/-- condition.py:2921-2937: the nodes that are joined in the texts about the edge from
`sender` to `receiver`: `sender_sources`, `sender_comparisons`, `receiver_sources` and
`receiver_comparisons`. `old_sender_nodes` is the graph given to `_process` (its sets may be
among those that the second loop changes), `old_receiver_nodes` are the receivers before.
Simplification: equal nodes are taken to be identical (`is self.owner`, 2921, 2930). -/
def joined (c : OpCond α) (owner : α) (s : HG α) (h : Heap α) (sender receiver : α) : List α :=
  let old := getReceivers s.value
  HG.senders ⟨h, s.graph⟩ receiver ++
  (if receiver = owner then unionAll (c.nodes.map (HG.senders ⟨h, s.graph⟩))
    else HG.senders ⟨h, s.graph⟩ owner) ++
  Dict.getD old sender ++
  (if sender = owner then unionAll (c.nodes.map fun n => Dict.getD old n) else Dict.getD old owner)

/-- condition.py:2941-2969, 2907-2908: a conflict is found, and the text about it cannot be
made. (`sorted`, 2897-2905, fails silently.) -/
def textFails (isStr : α → Bool) (c : OpCond α) (owner : α) (s : HG α) (ns : Dict α Addr)
    (h : Heap α) (nr : Graph α) (sender receiver : α) : Bool :=
  edgeConflict ns h nr sender receiver &&
    (c.joined owner s h sender receiver).any fun n => !isStr n

/-- condition.py:3131-3137: in the first loop. -/
def firstFails (isStr : α → Bool) (c : OpCond α) (owner : α) (s : HG α) (ns : Dict α Addr)
    (h : Heap α) (nr : Graph α) : Bool :=
  ns.any fun p => (h.read p.2).any fun sender => c.textFails isStr owner s ns h nr sender p.1

/-- condition.py:3143-3164: the body of the second loop, as in `receiverStep`; the flag says
whether the text about a conflict could not be made. (The loop is gone through to its end:
nothing of it remains after an exception.) -/
def failsStep (isStr : α → Bool) (c : OpCond α) (owner : α) (s : HG α) (ns : Dict α Addr)
    (nr : Graph α) (sender : α) (rs : List α) (acc : HG α × Bool) (node : α) : HG α × Bool :=
  if node ∈ rs then
    (acc.1.upd node (setAdd sender), acc.2 || c.textFails isStr owner s ns acc.1.heap nr sender node)
  else (acc.1.upd node (setRemove sender), acc.2)

/-- condition.py:3142-3164: the second loop. -/
def failsLoop (isStr : α → Bool) (c : OpCond α) (owner : α) (s : HG α) (ns : Dict α Addr)
    (nr : Graph α) (nodes : List α) (acc : HG α × Bool) : HG α × Bool :=
  nr.foldl (fun acc p => nodes.foldl (c.failsStep isStr owner s ns nr p.1 p.2) acc) acc

/-- condition.py:3094-3170: the text about some conflict cannot be made. -/
def operateFails (isStr : α → Bool) (c : OpCond α) (owner : α) (s : HG α) : Bool :=
  let nr := c.newReceivers owner s
  let rg := s.clone
  let ns := c.newSenders owner s rg.heap
  (c.failsLoop isStr owner s ns.2 nr (Dict.keys s.graph)
    (⟨ns.1, ns.2.foldl (fun g p => Dict.set g p.1 p.2) rg.graph⟩,
      c.firstFails isStr owner s ns.2 ns.1 nr)).2

/-- condition.py:3094-3170 `_GSCWithOperations._process`, with the texts. -/
def operateText (isStr : α → Bool) (c : OpCond α) (owner : α) (s : HG α) : Except Err (HG α) :=
  if c.ignoreConflicts = false ∧ c.operateFails isStr owner s = true then .error .typeError
  else c.operate owner s

/-- condition.py:2631-2641 `_modify_graph`, as in `transform`. -/
def transformText (isStr : α → Bool) (cyc : Graph α → List (List α)) (c : OpCond α) (owner : α)
    (s : HG α) : Except Err (HG α) :=
  match c.operateText isStr owner (c.preprocess owner s.clone) with
  | .ok r => c.postprocess cyc owner s.value (c.place owner r)
  | .error e => .error e

/-- condition.py:3262-3267 `_GSCReposition._modify_graph`, as in `modify`. -/
def modifyText (isStr : α → Bool) (cyc : Graph α → List (List α)) (c : OpCond α) (owner : α)
    (s : HG α) : Except Err (HG α) :=
  if (c.nodes.filter (c.valid owner s.clone)).length = c.nodes.length then .ok s.clone
  else c.transformText isStr cyc owner s.clone

end OpCond

/-- condition.py:2608-2641 `modify_graph`, as in `modifyGraph`, with the texts. -/
def GSC.modifyGraphText (isStr : α → Bool) (cyc : Graph α → List (List α)) (c : GSC α) (owner : α)
    (s : HG α) : Except Err (HG α) :=
  if c.inGraph owner s = false then .error .conditionError
  else match c with
    | .reposition c => c.modifyText isStr cyc owner s
    | .addEdgeTo node => .ok (s.clone.upd node (setAdd owner))
    | .removeEdgeFrom node => .ok (s.clone.upd owner (setRemove node))

namespace OpCond
variable {isStr : α → Bool} {c : OpCond α} {owner : α} {s : HG α}

/-- The two loops side by side. -/
structure Beside (isStr : α → Bool) (x y : HG α × Bool) : Prop where
  state : y.1 = x.1
  found : y.2 = true → x.2 = true
  none : (∀ n, isStr n = true) → y.2 = false
  all : (∀ n, isStr n = false) → x.2 = true → y.2 = true

theorem foldl_rel {β γ : Type _} {R : β → β → Prop} {f g : β → γ → β} (l : List γ)
    (h : ∀ c ∈ l, ∀ x y, R x y → R (f x c) (g y c)) : ∀ x y, R x y → R (l.foldl f x) (l.foldl g y) := by
  induction l with
  | nil => intro x y hr; exact hr
  | cons c l ih =>
    intro x y hr
    exact ih (fun d hd => h d (List.mem_cons_of_mem _ hd)) _ _ (h c List.mem_cons_self x y hr)

theorem _root_.GS.Oper.val_mem {op : Oper} {a b : List α} {x : α} (h : x ∈ op.val a b) :
    x ∈ a ∨ x ∈ b := by
  cases op <;> simp only [Oper.val, setUnion, List.mem_append, List.mem_filter,
    List.not_mem_nil] at h <;> grind

theorem receivers_joined (h : Heap α) {x m : α} (hm : m ∈ c.receiversVal owner s x) :
    m ∈ c.joined owner s h x m := by
  unfold receiversVal at hm
  unfold joined
  by_cases e : x = owner
  · rw [if_pos e] at hm
    have := Oper.val_mem hm
    subst e
    simp only [if_true, List.mem_append]
    grind
  · rw [if_neg e] at hm
    have := Oper.val_mem hm
    simp only [if_neg e, List.mem_append]
    grind

theorem senders_joined {h : Heap α} {x m : α}
    (hh : ∀ n ∈ m :: owner :: c.nodes, HG.senders ⟨h, s.graph⟩ n = s.senders n)
    (hx : x ∈ c.sendersVal owner s m) : x ∈ c.joined owner s h x m := by
  have e1 : c.nodes.map (HG.senders ⟨h, s.graph⟩) = c.nodes.map s.senders :=
    List.map_congr_left fun n hn => hh n (by simp [hn])
  unfold sendersVal at hx
  unfold joined
  rw [e1, hh m (by simp), hh owner (by simp)]
  by_cases e : m = owner
  · rw [if_pos e] at hx
    have := Oper.val_mem hx
    subst e
    simp only [if_true, List.mem_append]
    grind
  · rw [if_neg e] at hx
    have := Oper.val_mem hx
    simp only [if_neg e, List.mem_append]
    grind

theorem textFails_all (hi : ∀ n, isStr n = false) {ns h nr} {x m : α}
    (hj : ∃ n, n ∈ c.joined owner s h x m) (he : edgeConflict ns h nr x m = true) :
    c.textFails isStr owner s ns h nr x m = true := by
  unfold textFails
  rw [he]
  obtain ⟨n, hn⟩ := hj
  simp only [Bool.true_and, List.any_eq_true]
  exact ⟨n, hn, by rw [hi]; rfl⟩

theorem textFails_none (hi : ∀ n, isStr n = true) {ns h nr} {x m : α} :
    c.textFails isStr owner s ns h nr x m = false := by
  unfold textFails
  simp [hi]

theorem textFails_found {ns hp nr} {x m : α} (h : c.textFails isStr owner s ns hp nr x m = true) :
    edgeConflict ns hp nr x m = true := by
  unfold textFails at h
  simp only [Bool.and_eq_true] at h
  exact h.1

theorem operateFails_beside (hs : s.Ok) (hf : c.Fits owner s) :
    Beside isStr (c.loopEnd owner s) (c.failsLoop isStr owner s (c.newSenders owner s s.clone.heap).2
      (c.newReceivers owner s) (Dict.keys s.graph) (c.start owner s,
      c.firstFails isStr owner s (c.newSenders owner s s.clone.heap).2
      (c.newSenders owner s s.clone.heap).1 (c.newReceivers owner s))) := by
  unfold loopEnd receiverLoop failsLoop
  refine foldl_rel _ ?_ _ _ ?_
  · intro p hp x y h
    have hv := newReceivers_entries c owner s hf.apart p hp
    refine foldl_rel _ ?_ _ _ h
    intro m _ x y h
    unfold receiverStep failsStep
    by_cases hm : m ∈ p.2
    · rw [if_pos hm, if_pos hm, h.state]
      refine ⟨rfl, ?_, ?_, ?_⟩
      · simp only [Bool.or_eq_true]
        rintro (k | k)
        · exact .inl (h.found k)
        · exact .inr (textFails_found k)
      · intro hi; simp only; rw [h.none hi, textFails_none hi]; rfl
      · intro hi
        simp only [Bool.or_eq_true]
        rintro (k | k)
        · exact .inl (h.all hi k)
        · exact .inr (textFails_all hi ⟨m, receivers_joined _ (by rw [← hv.2]; exact hm)⟩ k)
    · rw [if_neg hm, if_neg hm, h.state]
      exact ⟨rfl, h.found, h.none, h.all⟩
  · obtain ⟨_, _, ⟨l, hl⟩, nwf, _, nget⟩ := newSenders_spec c owner hs s.clone.heap
      (HG.clone_spec hs).grows hf.ownerIn hf.nodesIn hf.apart
    obtain ⟨l0, hl0⟩ := (HG.clone_spec hs).grows
    have hh : ∀ n, HG.senders ⟨(c.newSenders owner s s.clone.heap).1, s.graph⟩ n = s.senders n := by
      intro n
      cases e : Dict.get? s.graph n with
      | none => unfold HG.senders; rw [e]
      | some a =>
        have hb := hs.bound n a e
        have e1 : HG.senders ⟨(c.newSenders owner s s.clone.heap).1, s.graph⟩ n =
            Heap.read (c.newSenders owner s s.clone.heap).1 a := HG.senders_of e
        have e2 : s.senders n = Heap.read s.heap a := HG.senders_of e
        rw [e1, e2, hl, hl0, List.append_assoc, read_append_left _ _ hb]
    refine ⟨rfl, ?_, ?_, ?_⟩
    · simp only [firstFails, firstConflicts, List.any_eq_true]
      rintro ⟨p, hp, x, hx, h⟩
      exact ⟨p, hp, x, hx, textFails_found h⟩
    · intro hi
      rw [Bool.eq_false_iff]
      simp only [firstFails, ne_eq, List.any_eq_true]
      rintro ⟨p, hp, x, hx, h⟩
      rw [textFails_none hi] at h
      cases h
    · intro hi
      simp only [firstFails, firstConflicts, List.any_eq_true]
      rintro ⟨p, hp, x, hx, h⟩
      have e := Dict.get?_of_mem nwf (by exact hp : (p.1, p.2) ∈ _)
      refine ⟨p, hp, x, hx, textFails_all hi ⟨x, senders_joined (fun n _ => hh n) ?_⟩ h⟩
      rw [← (nget _ _ e).2.1]
      exact hx

theorem operateFails_found (hs : s.Ok) (hf : c.Fits owner s)
    (h : c.operateFails isStr owner s = true) : (c.loopEnd owner s).2 = true :=
  (operateFails_beside (isStr := isStr) hs hf).found h

/-- What is raised, or returned, with the texts. -/
theorem operateText_cases (isStr : α → Bool) (hs : s.Ok) (hf : c.Fits owner s) :
    (c.operateText isStr owner s = c.operate owner s ∨
      c.operate owner s = .error .conditionError ∧ c.operateText isStr owner s = .error .typeError) ∧
    ((∀ n, isStr n = true) → c.operateText isStr owner s = c.operate owner s) ∧
    ((∀ n, isStr n = false) → c.operate owner s = .error .conditionError →
      c.operateText isStr owner s = .error .typeError) := by
  have hb := operateFails_beside (isStr := isStr) hs hf
  have he := operate_eq c owner s
  unfold operateText
  refine ⟨?_, ?_, ?_⟩
  · by_cases h : c.ignoreConflicts = false ∧ c.operateFails isStr owner s = true
    · rw [if_pos h, he, if_pos ⟨h.1, hb.found h.2⟩]
      exact .inr ⟨rfl, rfl⟩
    · rw [if_neg h]; exact .inl rfl
  · intro hi
    refine if_neg ?_
    rintro ⟨_, h⟩
    have := hb.none hi
    rw [show c.operateFails isStr owner s = false from this] at h
    cases h
  · intro hi h
    refine if_pos ?_
    rw [he] at h
    by_cases h' : c.ignoreConflicts = false ∧ (c.loopEnd owner s).2 = true
    · exact ⟨h'.1, hb.all hi h'.2⟩
    · rw [if_neg h'] at h; cases h

/-- What `modify_graph` raises, or returns, with the texts. -/
theorem modifyText_cases (isStr : α → Bool) (cyc : Graph α → List (List α)) (hs : s.Ok)
    (hf : c.Fits owner s) :
    (c.modifyText isStr cyc owner s = c.modify cyc owner s ∨
      c.modify cyc owner s = .error .conditionError ∧
        c.modifyText isStr cyc owner s = .error .typeError) ∧
    ((∀ n, isStr n = true) → c.modifyText isStr cyc owner s = c.modify cyc owner s) ∧
    ((∀ n, isStr n = false) → c.modify cyc owner s = .error .conditionError →
      c.modifyText isStr cyc owner s = .error .typeError) := by
  have P := pre_spec c owner hs hf
  obtain ⟨h1, h2, h3⟩ := operateText_cases isStr P.frame.ok P.fits
  unfold modifyText modify
  by_cases hv : (c.nodes.filter (c.valid owner s.clone)).length = c.nodes.length
  · rw [if_pos hv, if_pos hv]
    exact ⟨.inl rfl, fun _ => rfl, fun _ h => by cases h⟩
  · rw [if_neg hv, if_neg hv]
    refine ⟨?_, ?_, ?_⟩
    · rcases h1 with h | ⟨h, h'⟩
      · left
        unfold transformText transform
        rw [show c.operateText isStr owner (c.preprocess owner s.clone.clone) = _ from h]
        rfl
      · right
        unfold transformText transform
        rw [show c.operateText isStr owner (c.preprocess owner s.clone.clone) = _ from h',
          show c.operate owner (c.preprocess owner s.clone.clone) = _ from h]
        exact ⟨rfl, rfl⟩
    · intro hi
      unfold transformText transform
      rw [show c.operateText isStr owner (c.preprocess owner s.clone.clone) = _ from h2 hi]
      rfl
    · intro hi h
      have hm : c.modify cyc owner s = .error .conditionError := by
        unfold modify; rw [if_neg hv]; exact h
      rcases modify_cases cyc c owner hs hf with ⟨_, e⟩ | ⟨_, h5, h6, _⟩ | ⟨_, _, u, _, _, _, e, _⟩
      · rw [e] at hm; cases hm
      · have := h3 hi (by rw [operate_eq, if_pos ⟨h5, h6⟩])
        unfold transformText
        rw [show c.operateText isStr owner (c.preprocess owner s.clone.clone) = _ from this]
      · rw [e] at hm; cases hm

end OpCond
end GS

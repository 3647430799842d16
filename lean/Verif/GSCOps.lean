import Verif.GSCHeap
import Verif.Spec.GSC
/-! # What `_GSCWithOperations._process` does -/

set_option linter.unusedSectionVars false

namespace GS
open Spec Relation
variable {α : Type _} [DecidableEq α]

theorem mem_setUnion (s c : List α) (x : α) : x ∈ setUnion s c ↔ x ∈ s ∨ x ∈ c := by
  unfold setUnion
  rw [List.mem_append, List.mem_filter]
  by_cases h : x ∈ s <;> simp [h]

theorem mem_unionAll (ls : List (List α)) (x : α) : x ∈ unionAll ls ↔ ∃ l ∈ ls, x ∈ l := by
  have : ∀ (ls : List (List α)) acc, x ∈ ls.foldl setUnion acc ↔ x ∈ acc ∨ ∃ l ∈ ls, x ∈ l := by
    intro ls
    induction ls with
    | nil => intro acc; simp
    | cons l ls ih =>
      intro acc
      rw [List.foldl_cons, ih, mem_setUnion]
      simp only [List.mem_cons, exists_eq_or_imp, or_assoc]
  unfold unionAll
  rw [this]; simp

theorem mem_val (op : Oper) (s c : List α) (x : α) : x ∈ op.val s c ↔ OperHolds op (x ∈ s) (x ∈ c) := by
  cases op <;> simp [Oper.val, OperHolds, mem_setUnion]

/-- The contents of the object an operation returns, and where it is. -/
theorem obj_spec (op : Oper) (h : Heap α) (s c : Addr) (hs : s < h.length) (hc : c < h.length) :
    (∃ l, (op.obj h s c).1 = h ++ l) ∧ (op.obj h s c).2 < (op.obj h s c).1.length ∧
    (op.obj h s c).1.read (op.obj h s c).2 = op.val (h.read s) (h.read c) ∧
    ((op = .keep ∧ (op.obj h s c).2 = s) ∨ (op = .replace ∧ (op.obj h s c).2 = c) ∨
      h.length ≤ (op.obj h s c).2) := by
  have key : ∀ v : List α, (∃ l, h ++ [v] = h ++ l) ∧ h.length < (h ++ [v]).length ∧
      Heap.read (h ++ [v]) h.length = v := by
    intro v
    exact ⟨⟨_, rfl⟩, by simp, read_append_self h v⟩
  cases op
  case keep => exact ⟨⟨[], by simp [Oper.obj]⟩, hs, rfl, .inl ⟨rfl, rfl⟩⟩
  case replace => exact ⟨⟨[], by simp [Oper.obj]⟩, hc, rfl, .inr (.inl ⟨rfl, rfl⟩)⟩
  all_goals
    obtain ⟨h1, h2, h3⟩ := key (Oper.val _ (h.read s) (h.read c))
    exact ⟨h1, h2, h3, .inr (.inr (Nat.le_refl _))⟩

namespace OpCond

/-- The new senders of the owner and the subjects, as values. -/
def sendersVal (c : OpCond α) (owner : α) (s : HG α) (n : α) : List α :=
  if n = owner then c.ownerSenders.val (s.senders owner) (unionAll (c.nodes.map s.senders))
  else (c.subjectSenders n).val (s.senders n) (s.senders owner)

/-- The new receivers. -/
def receiversVal (c : OpCond α) (owner : α) (s : HG α) (n : α) : List α :=
  if n = owner then c.ownerReceivers.val (Dict.getD (getReceivers s.value) owner)
    (unionAll (c.nodes.map fun n => Dict.getD (getReceivers s.value) n))
  else (c.subjectReceivers n).val (Dict.getD (getReceivers s.value) n)
    (Dict.getD (getReceivers s.value) owner)

theorem mem_sendersVal (c : OpCond α) (owner : α) {s : HG α} (h : s.Ok) (r x : α) :
    x ∈ c.sendersVal owner s r ↔ NewSender c owner s.value r x := by
  unfold sendersVal NewSender
  by_cases hr : r = owner
  · subst hr
    simp only [if_true, mem_val, mem_unionAll, List.mem_map, true_and, ne_eq, not_true, false_and,
      or_false]
    rw [HG.edge_value h]
    have : (∃ l, (∃ a, a ∈ c.nodes ∧ s.senders a = l) ∧ x ∈ l) ↔
        ∃ n, n ∈ c.nodes ∧ Edge s.value x n := by
      constructor
      · rintro ⟨l, ⟨a, ha, rfl⟩, hx⟩
        exact ⟨a, ha, (HG.edge_value h x a).mpr hx⟩
      · rintro ⟨n, hn, hx⟩
        exact ⟨_, ⟨n, hn, rfl⟩, (HG.edge_value h x n).mp hx⟩
    rw [this]
  · simp only [hr, if_false, mem_val, false_and, false_or, ne_eq, not_false_eq_true, true_and]
    rw [HG.edge_value h, HG.edge_value h]

theorem mem_receiversVal (c : OpCond α) (owner : α) (s : HG α) (x r : α) :
    r ∈ c.receiversVal owner s x ↔ NewReceiver c owner s.value x r := by
  unfold receiversVal NewReceiver
  by_cases hr : x = owner
  · subst hr
    simp only [if_true, mem_val, mem_unionAll, List.mem_map, true_and, ne_eq, not_true, false_and,
      or_false, mem_getReceivers]
    have : (∃ l, (∃ a, a ∈ c.nodes ∧ Dict.getD (getReceivers s.value) a = l) ∧ r ∈ l) ↔
        ∃ n, n ∈ c.nodes ∧ Edge s.value n r := by
      constructor
      · rintro ⟨l, ⟨a, ha, rfl⟩, hx⟩
        exact ⟨a, ha, (mem_getReceivers _ _ _).mp hx⟩
      · rintro ⟨n, hn, hx⟩
        exact ⟨_, ⟨n, hn, rfl⟩, (mem_getReceivers _ _ _).mpr hx⟩
    rw [this]
  · simp only [hr, if_false, mem_val, false_and, false_or, ne_eq, not_false_eq_true, true_and,
      mem_getReceivers]

/-! ## `new_receiver_nodes` -/

theorem fold_set_get? {β : Type _} (f : α → β) (l : List α) : ∀ (d : Dict α β) n,
    Dict.get? (l.foldl (fun acc n => Dict.set acc n (f n)) d) n =
      if n ∈ l then some (f n) else Dict.get? d n := by
  induction l with
  | nil => intro d n; simp
  | cons a l ih =>
    intro d n
    rw [List.foldl_cons, ih, Dict.get?_set]
    by_cases h1 : n ∈ l <;> by_cases h2 : a = n <;> simp [h1, h2, eq_comm]

theorem fold_set_wf {β : Type _} (f : α → β) (l : List α) : ∀ (d : Dict α β), Dict.WF d →
    Dict.WF (l.foldl (fun acc n => Dict.set acc n (f n)) d) := by
  induction l with
  | nil => intro d h; exact h
  | cons a l ih => intro d h; exact ih _ (h.set _ _)

theorem newReceivers_spec (c : OpCond α) (owner : α) (s : HG α) (ho : owner ∉ c.nodes) :
    Dict.WF (c.newReceivers owner s) ∧ ∀ n, Dict.get? (c.newReceivers owner s) n =
      if n = owner ∨ n ∈ c.nodes then some (c.receiversVal owner s n) else none := by
  constructor
  · exact fold_set_wf (fun n => (c.subjectReceivers n).val (Dict.getD (getReceivers s.value) n)
      (Dict.getD (getReceivers s.value) owner)) c.nodes _ (by simp [Dict.WF])
  · intro n
    have := fold_set_get? (fun n => (c.subjectReceivers n).val (Dict.getD (getReceivers s.value) n)
      (Dict.getD (getReceivers s.value) owner)) c.nodes
      [(owner, c.ownerReceivers.val (Dict.getD (getReceivers s.value) owner)
        (unionAll (c.nodes.map fun n => Dict.getD (getReceivers s.value) n)))] n
    unfold newReceivers
    simp only
    rw [this, Dict.get?_cons]
    unfold receiversVal
    by_cases h1 : n = owner
    · subst h1; simp [ho]
    · have : owner ≠ n := fun e => h1 e.symm
      by_cases h2 : n ∈ c.nodes <;> simp [h1, h2, this]

/-! ## `new_sender_nodes` -/

/-- Where the new set of senders of `n` is: the object of an old set, or a new object. -/
def Place (c : OpCond α) (owner : α) (s : HG α) (lo mid : Nat) (n : α) (a : Addr) : Prop :=
  (n = owner ∧ ((c.ownerSenders = .keep ∧ a = s.addr owner) ∨ (lo ≤ a ∧ a < mid))) ∨
  (n ≠ owner ∧ ((c.subjectSenders n = .keep ∧ a = s.addr n) ∨
    (c.subjectSenders n = .replace ∧ a = s.addr owner) ∨ mid ≤ a))

theorem addr_of {s : HG α} {n : α} {a : Addr} (h : Dict.get? s.graph n = some a) : s.addr n = a := by
  unfold HG.addr; rw [h]; rfl

theorem get?_addr {s : HG α} {n : α} (h : n ∈ Dict.keys s.graph) :
    Dict.get? s.graph n = some (s.addr n) := by
  have := Dict.get?_isSome.mpr h
  cases e : Dict.get? s.graph n with
  | none => rw [e] at this; cases this
  | some a => rw [addr_of e]

theorem newSenders_spec (c : OpCond α) (owner : α) {s : HG α} (hs : s.Ok) (h : Heap α)
    (hh : ∃ l, h = s.heap ++ l) (hk : owner ∈ Dict.keys s.graph)
    (hn : ∀ n ∈ c.nodes, n ∈ Dict.keys s.graph) (ho : owner ∉ c.nodes) :
    ∃ mid, h.length ≤ mid ∧ (∃ l, (c.newSenders owner s h).1 = h ++ l) ∧
      Dict.WF (c.newSenders owner s h).2 ∧
      (∀ n, n ∈ Dict.keys (c.newSenders owner s h).2 ↔ n = owner ∨ n ∈ c.nodes) ∧
      ∀ n a, Dict.get? (c.newSenders owner s h).2 n = some a →
        a < (c.newSenders owner s h).1.length ∧
        (c.newSenders owner s h).1.read a = c.sendersVal owner s n ∧
        c.Place owner s h.length mid n a := by
  obtain ⟨l0, hl0⟩ := hh
  have old : ∀ n, n ∈ Dict.keys s.graph → s.addr n < s.heap.length ∧
      s.heap.read (s.addr n) = s.senders n := by
    intro n hn
    have e := get?_addr hn
    exact ⟨hs.bound n _ e, (HG.senders_of e).symm⟩
  have oldr : ∀ n, n ∈ Dict.keys s.graph → ∀ l, s.addr n < (h ++ l).length ∧
      Heap.read (h ++ l) (s.addr n) = s.senders n := by
    intro n hn l
    obtain ⟨h1, h2⟩ := old n hn
    rw [hl0, List.append_assoc]
    exact ⟨by simp; omega, by rw [read_append_left _ _ h1, h2]⟩
  have hO := oldr owner hk [unionAll (c.nodes.map s.senders)]
  have hU : h.length < (h ++ [unionAll (c.nodes.map s.senders)]).length := by simp
  obtain ⟨⟨l1, e1⟩, b1, r1, p1⟩ := obj_spec c.ownerSenders
    (h ++ [unionAll (c.nodes.map s.senders)]) (s.addr owner) h.length hO.1 hU
  rw [hO.2, read_append_self] at r1
  generalize ho1 : c.ownerSenders.obj (h ++ [unionAll (c.nodes.map s.senders)]) (s.addr owner)
    h.length = o at e1 b1 r1 p1
  have hres : c.newSenders owner s h = c.nodes.foldl (fun acc n =>
    (((c.subjectSenders n).obj acc.1 (s.addr n) (s.addr owner)).1,
      Dict.set acc.2 n ((c.subjectSenders n).obj acc.1 (s.addr n) (s.addr owner)).2))
      (o.1, [(owner, o.2)]) := by
    unfold newSenders; simp only [ho1]
  rw [hres]
  refine ⟨o.1.length, by rw [e1]; simp only [List.length_append]; omega, ?_⟩
  have main : ∀ (l : List α), (∀ n ∈ l, n ∈ c.nodes) → ∀ (acc : Heap α × Dict α Addr) (P : α → Prop),
      (∃ l, acc.1 = h ++ l) → o.1.length ≤ acc.1.length → Dict.WF acc.2 →
      (∀ n, n ∈ Dict.keys acc.2 ↔ P n) →
      (∀ n a, Dict.get? acc.2 n = some a → a < acc.1.length ∧
        acc.1.read a = c.sendersVal owner s n ∧ c.Place owner s h.length o.1.length n a) →
      let r := l.foldl (fun acc n =>
        (((c.subjectSenders n).obj acc.1 (s.addr n) (s.addr owner)).1,
          Dict.set acc.2 n ((c.subjectSenders n).obj acc.1 (s.addr n) (s.addr owner)).2)) acc
      (∃ l, r.1 = h ++ l) ∧ Dict.WF r.2 ∧ (∀ n, n ∈ Dict.keys r.2 ↔ P n ∨ n ∈ l) ∧
      (∀ n a, Dict.get? r.2 n = some a → a < r.1.length ∧
        r.1.read a = c.sendersVal owner s n ∧ c.Place owner s h.length o.1.length n a) := by
    intro l
    induction l with
    | nil =>
      intro _ acc P h1 _ h2 h3 h4
      exact ⟨h1, h2, fun n => by simp [h3], h4⟩
    | cons m l ih =>
      intro hl acc P h1 hle h2 h3 h4
      have hm := hl m List.mem_cons_self
      obtain ⟨l2, hl2⟩ := h1
      have hmr := oldr m (hn m hm) l2
      have hor := oldr owner hk l2
      rw [← hl2] at hmr hor
      obtain ⟨⟨l3, e3⟩, b3, r3, p3⟩ := obj_spec (c.subjectSenders m) acc.1 (s.addr m) (s.addr owner)
        hmr.1 hor.1
      rw [hmr.2, hor.2] at r3
      simp only [List.foldl_cons]
      generalize hq : (c.subjectSenders m).obj acc.1 (s.addr m) (s.addr owner) = q at e3 b3 r3 p3
      have hmo : m ≠ owner := fun e => ho (e ▸ hm)
      have := ih (fun n hn => hl n (List.mem_cons_of_mem _ hn)) (q.1, Dict.set acc.2 m q.2)
        (fun n => P n ∨ n = m) ⟨l2 ++ l3, by rw [e3, hl2, List.append_assoc]⟩
        (by rw [e3]; simp; omega) (h2.set _ _)
        (fun n => by rw [Dict.mem_keys_set, h3]; exact Or.comm)
        (fun n a hget => by
          rw [Dict.get?_set] at hget
          by_cases hmn : m = n
          · subst hmn
            rw [if_pos rfl] at hget
            cases hget
            refine ⟨b3, ?_, ?_⟩
            · rw [r3]; unfold sendersVal; rw [if_neg hmo]
            · refine .inr ⟨hmo, ?_⟩
              rcases p3 with p | p | p
              · exact .inl p
              · exact .inr (.inl p)
              · exact .inr (.inr (Nat.le_trans hle p))
          · rw [if_neg hmn] at hget
            obtain ⟨g1, g2, g3⟩ := h4 n a hget
            refine ⟨by rw [e3]; simp; omega, ?_, g3⟩
            rw [e3, read_append_left _ _ g1, g2])
      simp only at this
      obtain ⟨t1, t2, t3, t4⟩ := this
      refine ⟨t1, t2, fun n => ?_, t4⟩
      rw [t3, List.mem_cons, or_assoc]
  have hval : c.ownerSenders.val (s.senders owner) (unionAll (c.nodes.map s.senders)) =
      c.sendersVal owner s owner := by unfold sendersVal; rw [if_pos rfl]
  have := main c.nodes (fun n hn => hn) (o.1, [(owner, o.2)]) (fun n => n = owner)
    ⟨[unionAll (c.nodes.map s.senders)] ++ l1, by rw [e1, List.append_assoc]⟩ (Nat.le_refl _) (by simp [Dict.WF])
    (fun n => (List.mem_singleton : n ∈ [owner] ↔ n = owner))
    (fun n a hget => by
      rw [Dict.get?_cons] at hget
      by_cases hmn : owner = n
      · subst hmn
        rw [if_pos rfl] at hget
        cases hget
        refine ⟨b1, by rw [r1, hval], .inl ⟨rfl, ?_⟩⟩
        rcases p1 with p | p | p
        · exact .inl p
        · exact .inr ⟨by omega, b1⟩
        · exact .inr ⟨by simp at p; omega, b1⟩
      · rw [if_neg hmn] at hget; cases hget)
  exact this

instance (c : OpCond α) (owner n : α) : Decidable (Touched c owner n) :=
  inferInstanceAs (Decidable (_ ∨ _))

/-! ## The start of the second loop -/

/-- The result graph before the second loop. -/
def start (c : OpCond α) (owner : α) (s : HG α) : HG α :=
  ⟨(c.newSenders owner s s.clone.heap).1,
    (c.newSenders owner s s.clone.heap).2.foldl (fun g p => Dict.set g p.1 p.2) s.clone.graph⟩

/-- The nodes of the condition are different keys of the graph. -/
structure Fits (c : OpCond α) (owner : α) (s : HG α) : Prop where
  ownerIn : owner ∈ Dict.keys s.graph
  nodesIn : ∀ n ∈ c.nodes, n ∈ Dict.keys s.graph
  apart : owner ∉ c.nodes

/-- Every set belongs to one node. -/
def NoSharing (s : HG α) : Prop :=
  ∀ n m a, Dict.get? s.graph n = some a → Dict.get? s.graph m = some a → n = m

/-- Facts about the start of the second loop. -/
structure Start (c : OpCond α) (owner : α) (s t : HG α) : Prop where
  ok : t.Ok
  keys : Dict.keys t.graph = Dict.keys s.graph
  touched : ∀ n, Touched c owner n → t.senders n = c.sendersVal owner s n
  other : ∀ n, ¬ Touched c owner n → t.senders n = s.senders n
  shares : ∀ n m, t.Shares n m → n = m ∨ (Touched c owner n ∧ Touched c owner m)
  ownerShares : ∀ n, t.Shares owner n →
    n = owner ∨ (c.ownerSenders = .keep ∧ n ∈ c.nodes ∧ c.subjectSenders n = .replace)
  low : ∀ n a, Dict.get? t.graph n = some a →
    (∃ m, Dict.get? s.graph m = some a) ∨ s.heap.length ≤ a
  grows : ∃ l, t.heap = s.heap ++ l
  ns : ∀ n, Touched c owner n →
    Dict.get? t.graph n = Dict.get? (c.newSenders owner s s.clone.heap).2 n

theorem keys_foldl_set {β : Type _} (e : Dict α β) : ∀ d : Dict α β, (∀ n ∈ Dict.keys e, n ∈ Dict.keys d) →
    Dict.keys (e.foldl (fun g p => Dict.set g p.1 p.2) d) = Dict.keys d := by
  induction e with
  | nil => intro d _; rfl
  | cons p e ih =>
    intro d h
    have hp : p.1 ∈ Dict.keys d := h p.1 (by simp [Dict.keys])
    have hk : Dict.keys (Dict.set d p.1 p.2) = Dict.keys d := by
      rw [Dict.keys_set, if_pos hp]
    rw [List.foldl_cons, ih, hk]
    intro n hn
    rw [hk]
    exact h n (by simp only [Dict.keys, List.map_cons, List.mem_cons] at hn ⊢; exact .inr hn)

theorem start_spec (c : OpCond α) (owner : α) {s : HG α} (hs : s.Ok) (hf : c.Fits owner s)
    (hi : NoSharing s) : Start c owner s (c.start owner s) := by
  have hc := HG.clone_spec hs
  obtain ⟨mid, hmid, ⟨l1, hl1⟩, nwf, nk, nget⟩ := newSenders_spec c owner hs s.clone.heap hc.grows
    hf.ownerIn hf.nodesIn hf.apart
  obtain ⟨l0, hl0⟩ := hc.grows
  have hlen : s.heap.length ≤ s.clone.heap.length := by rw [hl0]; simp
  have hget : ∀ n, Dict.get? (c.start owner s).graph n =
      if Touched c owner n then Dict.get? (c.newSenders owner s s.clone.heap).2 n
      else Dict.get? s.clone.graph n := by
    intro n
    have e := Dict.get?_update s.clone.graph (c.newSenders owner s s.clone.heap).2 nwf n
    have e' : Dict.get? (c.start owner s).graph n = _ := e
    rw [e']
    by_cases ht : Touched c owner n
    · rw [if_pos ht]
      have := Dict.get?_isSome.mpr ((nk n).mpr ht)
      cases hx : Dict.get? (c.newSenders owner s s.clone.heap).2 n with
      | none => rw [hx] at this; cases this
      | some a => rfl
    · rw [if_neg ht]
      have : Dict.get? (c.newSenders owner s s.clone.heap).2 n = none :=
        Dict.get?_eq_none.mpr fun hm => ht ((nk n).mp hm)
      rw [this]; rfl
  have hkeys : Dict.keys (c.start owner s).graph = Dict.keys s.graph := by
    have : Dict.keys (c.start owner s).graph = Dict.keys s.clone.graph := by
      apply keys_foldl_set
      intro n hn
      rw [hc.keys]
      rcases (nk n).mp hn with e | e
      · rw [e]; exact hf.ownerIn
      · exact hf.nodesIn n e
    rw [this, hc.keys]
  have hheap : (c.start owner s).heap = s.clone.heap ++ l1 := hl1
  have clt : ∀ n a, Dict.get? s.clone.graph n = some a → a < s.clone.heap.length := hc.ok.bound
  have hT : ∀ n, Touched c owner n → n ∈ Dict.keys s.graph := by
    rintro n (e | e)
    · rw [e]; exact hf.ownerIn
    · exact hf.nodesIn n e
  have addrlt : ∀ n, n ∈ Dict.keys s.graph → s.addr n < s.heap.length := fun n hn =>
    hs.bound n _ (get?_addr hn)
  -- where the sets of touched nodes are
  have tplace : ∀ n a, Touched c owner n → Dict.get? (c.start owner s).graph n = some a →
      c.Place owner s s.clone.heap.length mid n a := by
    intro n a ht e
    rw [hget, if_pos ht] at e
    exact (nget n a e).2.2
  have tlow : ∀ n a, Touched c owner n → Dict.get? (c.start owner s).graph n = some a →
      (a < s.heap.length ∧ ∃ m, Dict.get? s.graph m = some a) ∨ s.clone.heap.length ≤ a := by
    intro n a ht e
    have ho := addrlt owner hf.ownerIn
    have hn := addrlt n (hT n ht)
    have go : ∃ m, Dict.get? s.graph m = some (s.addr owner) := ⟨_, get?_addr hf.ownerIn⟩
    have gn : ∃ m, Dict.get? s.graph m = some (s.addr n) := ⟨_, get?_addr (hT n ht)⟩
    rcases tplace n a ht e with ⟨_, ⟨_, h⟩ | h⟩ | ⟨_, ⟨_, h⟩ | ⟨_, h⟩ | h⟩
    · exact .inl (by rw [h]; exact ⟨ho, go⟩)
    · exact .inr h.1
    · exact .inl (by rw [h]; exact ⟨hn, gn⟩)
    · exact .inl (by rw [h]; exact ⟨ho, go⟩)
    · exact .inr (by omega)
  have ulow : ∀ n a, ¬ Touched c owner n → Dict.get? (c.start owner s).graph n = some a →
      s.heap.length ≤ a ∧ a < s.clone.heap.length := by
    intro n a ht e
    rw [hget, if_neg ht] at e
    exact ⟨hc.fresh n a e, clt n a e⟩
  refine ⟨⟨?_, ?_⟩, hkeys, ?_, ?_, ?_, ?_, ?_, ?_, ?_⟩
  · unfold Dict.WF; rw [hkeys]; exact hs.wf
  · intro n a e
    rw [hheap, List.length_append]
    by_cases ht : Touched c owner n
    · rw [hget, if_pos ht] at e
      have := (nget n a e).1
      rw [hl1, List.length_append] at this
      exact this
    · have := (ulow n a ht e).2; omega
  · intro n ht
    have : ∃ a, Dict.get? (c.start owner s).graph n = some a := ⟨_, get?_addr (by rw [hkeys]; exact hT n ht)⟩
    obtain ⟨a, e⟩ := this
    rw [HG.senders_of e]
    rw [hget, if_pos ht] at e
    exact (nget n a e).2.1
  · intro n ht
    unfold HG.senders
    rw [hget, if_neg ht]
    have := hc.same n
    unfold HG.senders at this
    rw [← this]
    cases e : Dict.get? s.clone.graph n with
    | none => rfl
    | some a =>
      simp only [hheap]
      exact read_append_left _ _ (clt n a e)
  · rintro n m ⟨a, e1, e2⟩
    by_cases h1 : Touched c owner n <;> by_cases h2 : Touched c owner m
    · exact .inr ⟨h1, h2⟩
    · have q1 := tlow n a h1 e1
      have q2 := ulow m a h2 e2
      rcases q1 with q | q <;> omega
    · have q1 := tlow m a h2 e2
      have q2 := ulow n a h1 e1
      rcases q1 with q | q <;> omega
    · rw [hget, if_neg h1] at e1
      rw [hget, if_neg h2] at e2
      exact .inl (hc.inj n m a e1 e2)
  · rintro n ⟨a, e1, e2⟩
    by_cases hno : n = owner
    · exact .inl hno
    right
    have ho : Touched c owner owner := .inl rfl
    by_cases h2 : Touched c owner n
    · have hol := addrlt owner hf.ownerIn
      have hnl := addrlt n (hT n h2)
      have p1 := tplace owner a ho e1
      have p2 := tplace n a h2 e2
      rcases p1 with ⟨_, p1⟩ | ⟨p1, _⟩
      · rcases p2 with ⟨p2, _⟩ | ⟨_, p2⟩
        · exact absurd p2 hno
        · rcases p1 with ⟨k1, k2⟩ | k1
          · rcases p2 with ⟨_, j⟩ | ⟨j1, _⟩ | j
            · exfalso
              have g1 := get?_addr hf.ownerIn
              have g2 := get?_addr (hT n h2)
              rw [← k2] at g1; rw [← j] at g2
              exact hno (hi n owner a g2 g1)
            · exact ⟨k1, (h2.resolve_left hno), j1⟩
            · omega
          · rcases p2 with ⟨_, j⟩ | ⟨_, j⟩ | j <;> omega
      · exact absurd rfl p1
    · have q1 := tlow owner a ho e1
      have q2 := ulow n a h2 e2
      rcases q1 with q | q <;> omega
  · intro n a e
    by_cases ht : Touched c owner n
    · rcases tlow n a ht e with q | q
      · exact .inl q.2
      · exact .inr (by omega)
    · exact .inr (ulow n a ht e).1
  · exact ⟨l0 ++ l1, by rw [hheap, hl0, List.append_assoc]⟩
  · intro n ht
    rw [hget, if_pos ht]

/-! ## The second loop -/

section loop
variable {c : OpCond α} {owner : α} {s T : HG α}

/-- The state of the second loop, with the sets of the owner and the subjects as they
were. -/
structure Inv (c : OpCond α) (owner : α) (T t : HG α) : Prop where
  graph : t.graph = T.graph
  len : t.heap.length = T.heap.length
  touched : ∀ n, Touched c owner n → t.senders n = T.senders n

theorem Inv.ok (hT : T.Ok) {t : HG α} (h : Inv c owner T t) : t.Ok :=
  ⟨by rw [h.graph]; exact hT.wf, by rw [h.graph, h.len]; exact hT.bound⟩

theorem Inv.shares {t : HG α} (h : Inv c owner T t) (n m : α) : t.Shares n m ↔ T.Shares n m := by
  unfold HG.Shares; rw [h.graph]

theorem edgeConflict_iff (hf : c.Fits owner s) (hk : ∀ n, n ∈ Dict.keys (c.newSenders owner s s.clone.heap).2 ↔ Touched c owner n)
    (hns : ∀ n, Touched c owner n →
      Dict.get? T.graph n = Dict.get? (c.newSenders owner s s.clone.heap).2 n)
    {t : HG α} (ht : t.graph = T.graph) (x m : α) :
    edgeConflict (c.newSenders owner s s.clone.heap).2 t.heap (c.newReceivers owner s) x m = true ↔
      Touched c owner m ∧ Touched c owner x ∧ ¬ (x ∈ t.senders m ↔ m ∈ c.receiversVal owner s x) := by
  have hr := (newReceivers_spec c owner s hf.apart).2
  have hrk : ∀ x, x ∈ Dict.keys (c.newReceivers owner s) ↔ Touched c owner x := by
    intro x
    rw [← Dict.get?_isSome, hr x]
    by_cases h : x = owner ∨ x ∈ c.nodes
    · rw [if_pos h]; exact ⟨fun _ => h, fun _ => rfl⟩
    · rw [if_neg h]; exact ⟨fun e => Bool.noConfusion e, fun e => absurd e h⟩
  unfold edgeConflict
  simp only [Bool.or_eq_true, Bool.and_eq_true, decide_eq_true_eq, hk, hrk]
  by_cases hm : Touched c owner m
  · by_cases hx : Touched c owner x
    · have e1 : HG.senders ⟨t.heap, (c.newSenders owner s s.clone.heap).2⟩ m = t.senders m := by
        unfold HG.senders
        simp only
        rw [ht, hns m hm]
      have e2 : Dict.getD (c.newReceivers owner s) x = c.receiversVal owner s x := by
        unfold Dict.getD; rw [hr x, if_pos (show x = owner ∨ x ∈ c.nodes from hx)]
      rw [e1, e2]
      by_cases p : x ∈ t.senders m <;> by_cases q : m ∈ c.receiversVal owner s x <;> simp [hm, hx, p, q]
    · simp [hx]
  · simp [hm]

/-- The two operations agree about the edge from `x` to `m`. -/
def Agrees (c : OpCond α) (owner : α) (s : HG α) (x m : α) : Prop :=
  Touched c owner m → (x ∈ c.sendersVal owner s m ↔ m ∈ c.receiversVal owner s x)

theorem setAdd_of_mem {x : α} {l : List α} (h : x ∈ l) : setAdd x l = l := by
  unfold setAdd; rw [if_pos h]

theorem setRemove_of_not_mem {x : α} {l : List α} (h : x ∉ l) : setRemove x l = l := by
  unfold setRemove
  rw [List.filter_eq_self]
  intro a ha
  simp only [decide_eq_true_eq]
  exact fun e => h (e ▸ ha)

theorem step_agrees (hS : Start c owner s T) (hf : c.Fits owner s)
    (hk : ∀ n, n ∈ Dict.keys (c.newSenders owner s s.clone.heap).2 ↔ Touched c owner n)
    {t : HG α} (ht : Inv c owner T t) {x m : α} (hx : Touched c owner x)
    (hm : m ∈ Dict.keys s.graph) (hg : Agrees c owner s x m) (b : Bool) :
    let r := receiverStep (c.newSenders owner s s.clone.heap).2 (c.newReceivers owner s) x
      (c.receiversVal owner s x) (t, b) m
    Inv c owner T r.1 ∧ r.2 = b ∧
    ∀ n, ¬ Touched c owner n → ∀ y, y ∈ r.1.senders n ↔
      if n = m ∧ y = x then m ∈ c.receiversVal owner s x else y ∈ t.senders n := by
  have tok := ht.ok hS.ok
  have hmt : m ∈ Dict.keys t.graph := by rw [ht.graph, hS.keys]; exact hm
  -- an update that does nothing for touched nodes
  have key : ∀ f : List α → List α, (Touched c owner m → f (t.senders m) = t.senders m) →
      Inv c owner T (t.upd m f) := by
    intro f hfm
    refine ⟨by rw [HG.graph_upd, ht.graph], by rw [HG.length_upd, ht.len], fun n hn => ?_⟩
    by_cases hsh : t.Shares m n
    · have hsh' := (ht.shares m n).mp hsh
      rw [HG.senders_upd_shared tok f hsh]
      have hmT : Touched c owner m := by
        rcases hS.shares m n hsh' with e | e
        · rw [e]; exact hn
        · exact e.1
      rw [← hsh.senders_eq, hfm hmT, hsh.senders_eq]
      exact ht.touched n hn
    · rw [HG.senders_upd_other tok f hsh]; exact ht.touched n hn
  have other : ∀ (f : List α → List α) n, ¬ Touched c owner n →
      (t.upd m f).senders n = if n = m then f (t.senders m) else t.senders n := by
    intro f n hn
    by_cases e : n = m
    · subst e; rw [if_pos rfl]; exact HG.senders_upd_self tok hmt f
    · rw [if_neg e]
      refine HG.senders_upd_other tok f fun hsh => ?_
      rcases hS.shares m n ((ht.shares m n).mp hsh) with e' | e'
      · exact e e'.symm
      · exact hn e'.2
  have hv : Touched c owner m → (x ∈ t.senders m ↔ m ∈ c.receiversVal owner s x) := by
    intro hmT
    rw [ht.touched m hmT, hS.touched m hmT]
    exact hg hmT
  unfold receiverStep
  by_cases hr : m ∈ c.receiversVal owner s x
  · simp only [if_pos hr]
    refine ⟨key _ fun hmT => setAdd_of_mem ((hv hmT).mpr hr), ?_, ?_⟩
    · have : edgeConflict (c.newSenders owner s s.clone.heap).2 t.heap (c.newReceivers owner s) x m = false := by
        rw [Bool.eq_false_iff]
        intro hc
        obtain ⟨h1, _, h3⟩ := (edgeConflict_iff hf hk hS.ns ht.graph x m).mp hc
        exact h3 (hv h1)
      rw [this, Bool.or_false]
    · intro n hn y
      rw [other _ n hn]
      by_cases e : n = m
      · subst e
        by_cases ey : y = x
        · subst ey; simp [hr]
        · simp [ey]
      · simp [e]
  · simp only [if_neg hr]
    refine ⟨key _ fun hmT => setRemove_of_not_mem fun h => hr ((hv hmT).mp h), trivial, ?_⟩
    · intro n hn y
      rw [other _ n hn]
      by_cases e : n = m
      · subst e
        by_cases ey : y = x
        · subst ey; simp [hr]
        · simp [ey]
      · simp [e]

theorem inner_agrees (hS : Start c owner s T) (hf : c.Fits owner s)
    (hk : ∀ n, n ∈ Dict.keys (c.newSenders owner s s.clone.heap).2 ↔ Touched c owner n)
    {x : α} (hx : Touched c owner x) : ∀ (l : List α), (∀ m ∈ l, m ∈ Dict.keys s.graph) →
    (∀ m ∈ l, Agrees c owner s x m) → ∀ (t : HG α), Inv c owner T t → ∀ b : Bool,
    let r := l.foldl (receiverStep (c.newSenders owner s s.clone.heap).2 (c.newReceivers owner s) x
      (c.receiversVal owner s x)) (t, b)
    Inv c owner T r.1 ∧ r.2 = b ∧
    ∀ n, ¬ Touched c owner n → ∀ y, y ∈ r.1.senders n ↔
      if n ∈ l ∧ y = x then n ∈ c.receiversVal owner s x else y ∈ t.senders n := by
  intro l
  induction l with
  | nil => intro _ _ t ht b; exact ⟨ht, rfl, fun n _ y => by simp⟩
  | cons m l ih =>
    intro hl ha t ht b
    simp only [List.foldl_cons]
    have h1 := step_agrees hS hf hk ht hx (hl m List.mem_cons_self) (ha m List.mem_cons_self) b
    generalize receiverStep (c.newSenders owner s s.clone.heap).2 (c.newReceivers owner s) x
      (c.receiversVal owner s x) (t, b) m = q at h1 ⊢
    obtain ⟨t1, b1⟩ := q
    simp only at h1
    obtain ⟨i1, rfl, i3⟩ := h1
    obtain ⟨j1, j2, j3⟩ := ih (fun n hn => hl n (List.mem_cons_of_mem _ hn))
      (fun n hn => ha n (List.mem_cons_of_mem _ hn)) t1 i1 b1
    refine ⟨j1, j2, fun n hn y => ?_⟩
    rw [j3 n hn y, i3 n hn y]
    by_cases ey : y = x
    · by_cases e1 : n ∈ l
      · simp [e1, ey]
      · by_cases e2 : n = m
        · subst e2; simp [e1, ey]
        · simp [e1, e2, ey]
    · simp [ey]

theorem outer_agrees (hS : Start c owner s T) (hf : c.Fits owner s)
    (hk : ∀ n, n ∈ Dict.keys (c.newSenders owner s s.clone.heap).2 ↔ Touched c owner n)
    (ha : ∀ x m, Touched c owner x → Agrees c owner s x m) :
    ∀ (d : Graph α), (∀ p ∈ d, Touched c owner p.1 ∧ p.2 = c.receiversVal owner s p.1) →
    ∀ (t : HG α), Inv c owner T t → ∀ b : Bool,
    let r := d.foldl (fun acc p => (Dict.keys s.graph).foldl
      (receiverStep (c.newSenders owner s s.clone.heap).2 (c.newReceivers owner s) p.1 p.2) acc) (t, b)
    Inv c owner T r.1 ∧ r.2 = b ∧
    ∀ n, ¬ Touched c owner n → n ∈ Dict.keys s.graph → ∀ y, y ∈ r.1.senders n ↔
      if y ∈ Dict.keys d then n ∈ c.receiversVal owner s y else y ∈ t.senders n := by
  intro d
  induction d with
  | nil => intro _ t ht b; exact ⟨ht, rfl, fun n _ _ y => by simp⟩
  | cons p d ih =>
    intro hd t ht b
    simp only [List.foldl_cons]
    obtain ⟨x, rs⟩ := p
    obtain ⟨hx, hrs⟩ := hd _ List.mem_cons_self
    simp only at hx hrs
    subst hrs
    have h1 := inner_agrees hS hf hk hx (Dict.keys s.graph) (fun _ h => h)
      (fun m _ => ha x m hx) t ht b
    simp only at h1 ⊢
    generalize (Dict.keys s.graph).foldl (receiverStep (c.newSenders owner s s.clone.heap).2
      (c.newReceivers owner s) x (c.receiversVal owner s x)) (t, b) = q at h1 ⊢
    obtain ⟨t1, b1⟩ := q
    simp only at h1
    obtain ⟨i1, rfl, i3⟩ := h1
    obtain ⟨j1, j2, j3⟩ := ih (fun p hp => hd p (List.mem_cons_of_mem _ hp)) t1 i1 b1
    refine ⟨j1, j2, fun n hn hnk y => ?_⟩
    rw [j3 n hn hnk y, i3 n hn y]
    simp only [Dict.keys_cons, List.mem_cons]
    by_cases ey : y = x
    · subst ey
      by_cases e1 : y ∈ Dict.keys d <;> simp [e1, hnk]
    · by_cases e1 : y ∈ Dict.keys d <;> simp [e1, ey]

/-! ### Without an error the operations agree -/

theorem step_flag (x : α) (rs : List α) (ns : Dict α Addr) (nr : Graph α) (acc : HG α × Bool) (m : α) :
    (receiverStep ns nr x rs acc m).2 = false → acc.2 = false := by
  unfold receiverStep
  by_cases h : m ∈ rs
  · rw [if_pos h]; intro e; exact (Bool.or_eq_false_iff.mp e).1
  · rw [if_neg h]; exact id

theorem inner_flag (x : α) (rs : List α) (ns : Dict α Addr) (nr : Graph α) (l : List α) :
    ∀ acc : HG α × Bool, (l.foldl (receiverStep ns nr x rs) acc).2 = false → acc.2 = false := by
  induction l with
  | nil => intro acc h; exact h
  | cons m l ih => intro acc h; exact step_flag x rs ns nr acc m (ih _ h)

theorem outer_flag (ns : Dict α Addr) (nr : Graph α) (nodes : List α) (d : Graph α) :
    ∀ acc : HG α × Bool,
      (d.foldl (fun acc p => nodes.foldl (receiverStep ns nr p.1 p.2) acc) acc).2 = false →
      acc.2 = false := by
  induction d with
  | nil => intro acc h; exact h
  | cons p d ih => intro acc h; exact inner_flag p.1 p.2 ns nr nodes acc (ih _ h)

theorem inner_ok (hS : Start c owner s T) (hf : c.Fits owner s)
    (hk : ∀ n, n ∈ Dict.keys (c.newSenders owner s s.clone.heap).2 ↔ Touched c owner n)
    {x : α} (hx : Touched c owner x)
    (h1 : ∀ m, Touched c owner m → x ∈ c.sendersVal owner s m → m ∈ c.receiversVal owner s x) :
    ∀ (l : List α), (∀ m ∈ l, m ∈ Dict.keys s.graph) → ∀ (t : HG α), Inv c owner T t → ∀ b : Bool,
    (l.foldl (receiverStep (c.newSenders owner s s.clone.heap).2 (c.newReceivers owner s) x
      (c.receiversVal owner s x)) (t, b)).2 = false → ∀ m ∈ l, Agrees c owner s x m := by
  intro l
  induction l with
  | nil => intro _ t _ b _ m hm; cases hm
  | cons m l ih =>
    intro hl t ht b hfl
    rw [List.foldl_cons] at hfl
    have hm : Agrees c owner s x m := by
      intro hmT
      refine ⟨h1 m hmT, fun hr => ?_⟩
      have hst := inner_flag _ _ _ _ l _ hfl
      unfold receiverStep at hst
      rw [if_pos hr] at hst
      have := (Bool.or_eq_false_iff.mp hst).2
      simp only at this
      apply Classical.byContradiction
      intro hn
      rw [Bool.eq_false_iff] at this
      apply this
      rw [edgeConflict_iff hf hk hS.ns ht.graph]
      refine ⟨hmT, hx, fun hiff => hn ?_⟩
      rw [← hS.touched m hmT, ← ht.touched m hmT]
      exact hiff.mpr hr
    have h2 := step_agrees hS hf hk ht hx (hl m List.mem_cons_self) hm b
    generalize receiverStep (c.newSenders owner s s.clone.heap).2 (c.newReceivers owner s) x
      (c.receiversVal owner s x) (t, b) m = q at h2 hfl
    obtain ⟨t1, b1⟩ := q
    simp only at h2
    intro n hn
    rcases List.mem_cons.mp hn with e | e
    · subst e; exact hm
    · exact ih (fun k hk => hl k (List.mem_cons_of_mem _ hk)) t1 h2.1 b1 hfl n e

theorem outer_ok (hS : Start c owner s T) (hf : c.Fits owner s)
    (hk : ∀ n, n ∈ Dict.keys (c.newSenders owner s s.clone.heap).2 ↔ Touched c owner n)
    (h1 : ∀ x m, Touched c owner x → Touched c owner m → x ∈ c.sendersVal owner s m →
      m ∈ c.receiversVal owner s x) :
    ∀ (d : Graph α), (∀ p ∈ d, Touched c owner p.1 ∧ p.2 = c.receiversVal owner s p.1) →
    ∀ (t : HG α), Inv c owner T t → ∀ b : Bool,
    (d.foldl (fun acc p => (Dict.keys s.graph).foldl
      (receiverStep (c.newSenders owner s s.clone.heap).2 (c.newReceivers owner s) p.1 p.2) acc)
      (t, b)).2 = false →
    ∀ x ∈ Dict.keys d, ∀ m ∈ Dict.keys s.graph, Agrees c owner s x m := by
  intro d
  induction d with
  | nil => intro _ t _ b _ x hx; cases hx
  | cons p d ih =>
    intro hd t ht b hfl
    rw [List.foldl_cons] at hfl
    obtain ⟨x, rs⟩ := p
    obtain ⟨hx, hrs⟩ := hd _ List.mem_cons_self
    simp only at hx hrs hfl
    subst hrs
    have hin := inner_ok hS hf hk hx (fun m => h1 x m hx) (Dict.keys s.graph) (fun _ h => h) t ht b
      (outer_flag _ _ _ d _ hfl)
    have h2 := inner_agrees hS hf hk hx (Dict.keys s.graph) (fun _ h => h) hin t ht b
    generalize (Dict.keys s.graph).foldl (receiverStep (c.newSenders owner s s.clone.heap).2
      (c.newReceivers owner s) x (c.receiversVal owner s x)) (t, b) = q at h2 hfl
    obtain ⟨t1, b1⟩ := q
    simp only at h2
    intro y hy
    rcases List.mem_cons.mp hy with e | e
    · rw [e]; exact hin
    · exact ih (fun p hp => hd p (List.mem_cons_of_mem _ hp)) t1 h2.1 b1 hfl y e

/-! ### What the second loop does in any case -/

theorem step_graph (x : α) (rs : List α) (ns : Dict α Addr) (nr : Graph α) (acc : HG α × Bool) (m : α) :
    (receiverStep ns nr x rs acc m).1.graph = acc.1.graph ∧
    (receiverStep ns nr x rs acc m).1.heap.length = acc.1.heap.length ∧
    ∀ a, (∀ n, Dict.get? acc.1.graph n ≠ some a) →
      (receiverStep ns nr x rs acc m).1.heap.read a = acc.1.heap.read a := by
  unfold receiverStep
  by_cases h : m ∈ rs
  · rw [if_pos h]; exact ⟨HG.graph_upd _ _ _, HG.length_upd _ _ _, fun a ha => HG.read_upd _ _ _ a ha⟩
  · rw [if_neg h]; exact ⟨HG.graph_upd _ _ _, HG.length_upd _ _ _, fun a ha => HG.read_upd _ _ _ a ha⟩

theorem inner_graph (x : α) (rs : List α) (ns : Dict α Addr) (nr : Graph α) (l : List α) :
    ∀ acc : HG α × Bool,
    (l.foldl (receiverStep ns nr x rs) acc).1.graph = acc.1.graph ∧
    (l.foldl (receiverStep ns nr x rs) acc).1.heap.length = acc.1.heap.length ∧
    ∀ a, (∀ n, Dict.get? acc.1.graph n ≠ some a) →
      (l.foldl (receiverStep ns nr x rs) acc).1.heap.read a = acc.1.heap.read a := by
  induction l with
  | nil => intro acc; exact ⟨rfl, rfl, fun _ _ => rfl⟩
  | cons m l ih =>
    intro acc
    rw [List.foldl_cons]
    obtain ⟨h1, h2, h3⟩ := step_graph x rs ns nr acc m
    obtain ⟨i1, i2, i3⟩ := ih (receiverStep ns nr x rs acc m)
    exact ⟨i1.trans h1, i2.trans h2, fun a ha => (i3 a (by rw [h1]; exact ha)).trans (h3 a ha)⟩

theorem loop_graph (ns : Dict α Addr) (nr : Graph α) (nodes : List α) (d : Graph α) :
    ∀ acc : HG α × Bool,
    (d.foldl (fun acc p => nodes.foldl (receiverStep ns nr p.1 p.2) acc) acc).1.graph = acc.1.graph ∧
    (d.foldl (fun acc p => nodes.foldl (receiverStep ns nr p.1 p.2) acc) acc).1.heap.length =
      acc.1.heap.length ∧
    ∀ a, (∀ n, Dict.get? acc.1.graph n ≠ some a) →
      (d.foldl (fun acc p => nodes.foldl (receiverStep ns nr p.1 p.2) acc) acc).1.heap.read a =
        acc.1.heap.read a := by
  induction d with
  | nil => intro acc; exact ⟨rfl, rfl, fun _ _ => rfl⟩
  | cons p d ih =>
    intro acc
    rw [List.foldl_cons]
    obtain ⟨h1, h2, h3⟩ := inner_graph p.1 p.2 ns nr nodes acc
    obtain ⟨i1, i2, i3⟩ := ih (nodes.foldl (receiverStep ns nr p.1 p.2) acc)
    exact ⟨i1.trans h1, i2.trans h2, fun a ha => (i3 a (by rw [h1]; exact ha)).trans (h3 a ha)⟩

theorem step_mem {acc : HG α × Bool} (hok : acc.1.Ok) (x : α) (rs : List α) (ns : Dict α Addr)
    (nr : Graph α) (m : α) :
    (receiverStep ns nr x rs acc m).1.Ok ∧
    (∀ y n, y ≠ x → (y ∈ (receiverStep ns nr x rs acc m).1.senders n ↔ y ∈ acc.1.senders n)) ∧
    (∀ n, ¬ acc.1.Shares m n →
      (receiverStep ns nr x rs acc m).1.senders n = acc.1.senders n) ∧
    (m ∈ Dict.keys acc.1.graph → (x ∈ (receiverStep ns nr x rs acc m).1.senders m ↔ m ∈ rs)) := by
  have key : ∀ f : List α → List α, (∀ l y, y ≠ x → (y ∈ f l ↔ y ∈ l)) →
      ∀ y n, y ≠ x → (y ∈ (acc.1.upd m f).senders n ↔ y ∈ acc.1.senders n) := by
    intro f hf y n hy
    by_cases hsh : acc.1.Shares m n
    · rw [HG.senders_upd_shared hok f hsh]; exact hf _ y hy
    · rw [HG.senders_upd_other hok f hsh]
  unfold receiverStep
  by_cases h : m ∈ rs
  · rw [if_pos h]
    refine ⟨hok.upd _ _, key _ fun l y hy => by simp [hy], fun n hn => HG.senders_upd_other hok _ hn,
      fun hm => ?_⟩
    simp only
    rw [HG.senders_upd_self hok hm]; simp [h]
  · rw [if_neg h]
    refine ⟨hok.upd _ _, key _ fun l y hy => by simp [hy], fun n hn => HG.senders_upd_other hok _ hn,
      fun hm => ?_⟩
    simp only
    rw [HG.senders_upd_self hok hm]; simp [h]

theorem inner_mem (x : α) (rs : List α) (ns : Dict α Addr) (nr : Graph α) (l : List α) :
    ∀ acc : HG α × Bool, acc.1.Ok →
    (l.foldl (receiverStep ns nr x rs) acc).1.Ok ∧
    (∀ y n, y ≠ x → (y ∈ (l.foldl (receiverStep ns nr x rs) acc).1.senders n ↔ y ∈ acc.1.senders n)) ∧
    (∀ n, (∀ m, acc.1.Shares m n → m = n) → n ∈ Dict.keys acc.1.graph →
      (x ∈ (l.foldl (receiverStep ns nr x rs) acc).1.senders n ↔
        if n ∈ l then n ∈ rs else x ∈ acc.1.senders n)) := by
  induction l with
  | nil => intro acc h; exact ⟨h, fun _ _ _ => Iff.rfl, fun n _ _ => by simp⟩
  | cons m l ih =>
    intro acc h
    rw [List.foldl_cons]
    obtain ⟨h1, h2, h3, h4⟩ := step_mem h x rs ns nr m
    have hg := (step_graph x rs ns nr acc m).1
    obtain ⟨i1, i2, i3⟩ := ih _ h1
    refine ⟨i1, fun y n hy => (i2 y n hy).trans (h2 y n hy), fun n hp hn => ?_⟩
    rw [i3 n (fun k hk => hp k (by unfold HG.Shares at hk ⊢; rw [hg] at hk; exact hk)) (by rw [hg]; exact hn)]
    by_cases e1 : n ∈ l
    · simp [e1]
    · by_cases e2 : n = m
      · subst e2; simp [e1, h4 hn]
      · rw [h3 n (fun hsh => e2 (hp m hsh).symm)]; simp [e1, e2]

theorem loop_mem (ns : Dict α Addr) (nr : Graph α) (nodes : List α) (d : Graph α) :
    ∀ acc : HG α × Bool, acc.1.Ok → Dict.WF d →
    (d.foldl (fun acc p => nodes.foldl (receiverStep ns nr p.1 p.2) acc) acc).1.Ok ∧
    (∀ y n, y ∉ Dict.keys d →
      (y ∈ (d.foldl (fun acc p => nodes.foldl (receiverStep ns nr p.1 p.2) acc) acc).1.senders n ↔
        y ∈ acc.1.senders n)) ∧
    (∀ n, (∀ m, acc.1.Shares m n → m = n) → n ∈ Dict.keys acc.1.graph → n ∈ nodes →
      ∀ y, y ∈ Dict.keys d →
      (y ∈ (d.foldl (fun acc p => nodes.foldl (receiverStep ns nr p.1 p.2) acc) acc).1.senders n ↔
        n ∈ Dict.getD d y)) := by
  induction d with
  | nil => intro acc h _; exact ⟨h, fun _ _ _ => Iff.rfl, fun n _ _ _ y hy => by cases hy⟩
  | cons p d ih =>
    intro acc h wf
    rw [List.foldl_cons]
    obtain ⟨x, rs⟩ := p
    have hwf : x ∉ Dict.keys d ∧ Dict.WF d := by simpa [Dict.WF] using wf
    obtain ⟨h1, h2, h3⟩ := inner_mem x rs ns nr nodes acc h
    have hg := (inner_graph x rs ns nr nodes acc).1
    obtain ⟨i1, i2, i3⟩ := ih _ h1 hwf.2
    refine ⟨i1, fun y n hy => ?_, fun n hp hn hl y hy => ?_⟩
    · simp only [Dict.keys_cons, List.mem_cons, not_or] at hy
      exact (i2 y n hy.2).trans (h2 y n hy.1)
    · have hp' : ∀ m, HG.Shares (nodes.foldl (receiverStep ns nr x rs) acc).1 m n → m = n :=
        fun k hk => hp k (by unfold HG.Shares at hk ⊢; rw [hg] at hk; exact hk)
      by_cases e : y ∈ Dict.keys d
      · have hne : x ≠ y := fun e' => hwf.1 (e' ▸ e)
        rw [i3 n hp' (by rw [hg]; exact hn) hl y e]
        unfold Dict.getD
        rw [Dict.get?_cons, if_neg hne]
      · have hyx : y = x := by
          simp only [Dict.keys_cons, List.mem_cons] at hy
          exact hy.resolve_right e
        subst hyx
        rw [i2 y n e, h3 n hp hn, if_pos hl]
        unfold Dict.getD
        rw [Dict.get?_cons, if_pos rfl]

end loop

/-! ## The whole of `_process` -/

/-- The state after the second loop. -/
def loopEnd (c : OpCond α) (owner : α) (s : HG α) : HG α × Bool :=
  receiverLoop (c.newSenders owner s s.clone.heap).2 (c.newReceivers owner s) (Dict.keys s.graph)
    (c.start owner s, firstConflicts (c.newSenders owner s s.clone.heap).2
      (c.newSenders owner s s.clone.heap).1 (c.newReceivers owner s))

theorem operate_eq (c : OpCond α) (owner : α) (s : HG α) : c.operate owner s =
    if c.ignoreConflicts = false ∧ (c.loopEnd owner s).2 = true then .error .conditionError
    else .ok (c.loopEnd owner s).1 := rfl

theorem keys_newSenders (c : OpCond α) (owner : α) {s : HG α} (hs : s.Ok) (hf : c.Fits owner s) (n : α) :
    n ∈ Dict.keys (c.newSenders owner s s.clone.heap).2 ↔ Touched c owner n := by
  obtain ⟨_, _, _, _, nk, _⟩ := newSenders_spec c owner hs s.clone.heap (HG.clone_spec hs).grows
    hf.ownerIn hf.nodesIn hf.apart
  exact nk n

theorem newReceivers_entries (c : OpCond α) (owner : α) (s : HG α) (ho : owner ∉ c.nodes) :
    ∀ p ∈ c.newReceivers owner s, Touched c owner p.1 ∧ p.2 = c.receiversVal owner s p.1 := by
  intro p hp
  obtain ⟨wf, hget⟩ := newReceivers_spec c owner s ho
  have e := Dict.get?_of_mem wf (by exact hp : (p.1, p.2) ∈ _)
  rw [hget] at e
  by_cases h : p.1 = owner ∨ p.1 ∈ c.nodes
  · rw [if_pos h] at e; exact ⟨h, (Option.some.inj e).symm⟩
  · rw [if_neg h] at e; cases e

theorem keys_newReceivers (c : OpCond α) (owner : α) (s : HG α) (ho : owner ∉ c.nodes) (n : α) :
    n ∈ Dict.keys (c.newReceivers owner s) ↔ Touched c owner n := by
  rw [← Dict.get?_isSome, (newReceivers_spec c owner s ho).2 n]
  by_cases h : n = owner ∨ n ∈ c.nodes
  · rw [if_pos h]; exact ⟨fun _ => h, fun _ => rfl⟩
  · rw [if_neg h]; exact ⟨fun e => Bool.noConfusion e, fun e => absurd e h⟩

theorem firstConflicts_iff (c : OpCond α) (owner : α) {s : HG α} (hs : s.Ok) (hf : c.Fits owner s)
    (hi : NoSharing s) :
    firstConflicts (c.newSenders owner s s.clone.heap).2 (c.newSenders owner s s.clone.heap).1
      (c.newReceivers owner s) = true ↔
    ∃ x m, Touched c owner x ∧ Touched c owner m ∧ x ∈ c.sendersVal owner s m ∧
      m ∉ c.receiversVal owner s x := by
  have hS := start_spec c owner hs hf hi
  have hk := keys_newSenders c owner hs hf
  obtain ⟨_, _, _, nwf, _, nget⟩ := newSenders_spec c owner hs s.clone.heap (HG.clone_spec hs).grows
    hf.ownerIn hf.nodesIn hf.apart
  have hiff := fun x m => edgeConflict_iff hf hk hS.ns (t := c.start owner s) rfl x m
  have hv : ∀ m, Touched c owner m → (c.start owner s).senders m = c.sendersVal owner s m := hS.touched
  unfold firstConflicts
  simp only [List.any_eq_true]
  constructor
  · rintro ⟨p, hp, x, hx, hc⟩
    have e := Dict.get?_of_mem nwf (by exact hp : (p.1, p.2) ∈ _)
    have hx' : x ∈ c.sendersVal owner s p.1 := by rw [← (nget _ _ e).2.1]; exact hx
    obtain ⟨h1, h2, h3⟩ := (hiff x p.1).mp hc
    rw [hv _ h1] at h3
    exact ⟨x, p.1, h2, h1, hx', fun h => h3 ⟨fun _ => h, fun _ => hx'⟩⟩
  · rintro ⟨x, m, hx, hm, h1, h2⟩
    have := Dict.get?_isSome.mpr ((hk m).mpr hm)
    cases e : Dict.get? (c.newSenders owner s s.clone.heap).2 m with
    | none => rw [e] at this; cases this
    | some a =>
      refine ⟨(m, a), Dict.mem_of_get? e, x, ?_, ?_⟩
      · rw [(nget _ _ e).2.1]; exact h1
      · refine (hiff x m).mpr ⟨hm, hx, fun h => ?_⟩
        rw [hv m hm] at h
        exact h2 (h.mp h1)

/-- Whether the operations agree about every edge between touched nodes. -/
theorem agrees_iff (c : OpCond α) (owner : α) {s : HG α} (hs : s.Ok) :
    (∀ x m, Touched c owner x → Agrees c owner s x m) ↔ ¬ Disagree c owner s.value := by
  unfold Agrees Disagree
  constructor
  · rintro h ⟨x, r, hx, hr, hn⟩
    apply hn
    rw [← mem_sendersVal c owner hs, ← mem_receiversVal]
    exact h x r hx hr
  · intro h x m hx hm
    apply Classical.byContradiction
    intro hn
    refine h ⟨x, m, hx, hm, fun hi => hn ?_⟩
    rw [← mem_sendersVal c owner hs, ← mem_receiversVal] at hi
    exact hi

theorem loopEnd_flag (c : OpCond α) (owner : α) {s : HG α} (hs : s.Ok) (hf : c.Fits owner s)
    (hi : NoSharing s) : (c.loopEnd owner s).2 = true ↔ Disagree c owner s.value := by
  have hS := start_spec c owner hs hf hi
  have hk := keys_newSenders c owner hs hf
  have hI : Inv c owner (c.start owner s) (c.start owner s) := ⟨rfl, rfl, fun _ _ => rfl⟩
  constructor
  · intro h
    apply Classical.byContradiction
    intro hd
    have ha := (agrees_iff c owner hs).mpr hd
    have hfirst : firstConflicts (c.newSenders owner s s.clone.heap).2
        (c.newSenders owner s s.clone.heap).1 (c.newReceivers owner s) = false := by
      rw [Bool.eq_false_iff]
      intro hc
      obtain ⟨x, m, hx, hm, h1, h2⟩ := (firstConflicts_iff c owner hs hf hi).mp hc
      exact h2 ((ha x m hx hm).mp h1)
    have := (outer_agrees hS hf hk ha (c.newReceivers owner s)
      (newReceivers_entries c owner s hf.apart) (c.start owner s) hI false).2.1
    unfold loopEnd receiverLoop at h
    rw [hfirst] at h
    rw [this] at h
    cases h
  · intro hd
    apply Classical.byContradiction
    intro hfl
    have hfl : (c.loopEnd owner s).2 = false := by
      cases h : (c.loopEnd owner s).2
      · rfl
      · exact absurd h hfl
    have hfirst : firstConflicts (c.newSenders owner s s.clone.heap).2
        (c.newSenders owner s s.clone.heap).1 (c.newReceivers owner s) = false :=
      outer_flag _ _ _ _ _ hfl
    have h1 : ∀ x m, Touched c owner x → Touched c owner m → x ∈ c.sendersVal owner s m →
        m ∈ c.receiversVal owner s x := by
      intro x m hx hm hxm
      apply Classical.byContradiction
      intro hn
      have := (firstConflicts_iff c owner hs hf hi).mpr ⟨x, m, hx, hm, hxm, hn⟩
      rw [hfirst] at this; cases this
    have h2 := outer_ok hS hf hk h1 (c.newReceivers owner s) (newReceivers_entries c owner s hf.apart)
      (c.start owner s) hI _ hfl
    refine absurd hd ((agrees_iff c owner hs).mp fun x m hx hm => ?_)
    have hmk : m ∈ Dict.keys s.graph := by
      rcases hm with e | e
      · rw [e]; exact hf.ownerIn
      · exact hf.nodesIn m e
    exact h2 x ((keys_newReceivers c owner s hf.apart x).mpr hx) m hmk hm

theorem loopEnd_operated (c : OpCond α) (owner : α) {s : HG α} (hs : s.Ok) (hf : c.Fits owner s)
    (hi : NoSharing s) (hd : ¬ Disagree c owner s.value) :
    Operated c owner s.value (c.loopEnd owner s).1.value := by
  have hS := start_spec c owner hs hf hi
  have hk := keys_newSenders c owner hs hf
  have hI : Inv c owner (c.start owner s) (c.start owner s) := ⟨rfl, rfl, fun _ _ => rfl⟩
  have ha := (agrees_iff c owner hs).mpr hd
  obtain ⟨i1, _, i3⟩ := outer_agrees hS hf hk ha (c.newReceivers owner s)
      (newReceivers_entries c owner s hf.apart) (c.start owner s) hI
      (firstConflicts (c.newSenders owner s s.clone.heap).2
      (c.newSenders owner s s.clone.heap).1 (c.newReceivers owner s))
  have e : (c.loopEnd owner s).1 = ((c.newReceivers owner s).foldl (fun acc p =>
      (Dict.keys s.graph).foldl (receiverStep (c.newSenders owner s s.clone.heap).2
        (c.newReceivers owner s) p.1 p.2) acc) (c.start owner s,
      firstConflicts (c.newSenders owner s s.clone.heap).2
      (c.newSenders owner s s.clone.heap).1 (c.newReceivers owner s))).1 := rfl
  rw [← e] at i1 i3
  have ok := i1.ok hS.ok
  have hkeys : Dict.keys (c.loopEnd owner s).1.graph = Dict.keys s.graph := by rw [i1.graph, hS.keys]
  have hsend : ∀ x r, Touched c owner r → (Edge (c.loopEnd owner s).1.value x r ↔
      NewSender c owner s.value r x) := by
    intro x r hr
    rw [HG.edge_value ok, i1.touched r hr, hS.touched r hr, mem_sendersVal c owner hs]
  have huntouched : ∀ x r, ¬ Touched c owner r → (Edge (c.loopEnd owner s).1.value x r ↔
      if Touched c owner x then NewReceiver c owner s.value x r else Edge s.value x r) := by
    intro x r hr
    by_cases hrk : r ∈ Dict.keys s.graph
    · rw [HG.edge_value ok, i3 r hr hrk]
      by_cases hx : Touched c owner x
      · rw [if_pos hx, if_pos ((keys_newReceivers c owner s hf.apart x).mpr hx), mem_receiversVal]
      · rw [if_neg hx, if_neg (fun h => hx ((keys_newReceivers c owner s hf.apart x).mp h)),
          hS.other r hr, HG.edge_value hs]
    · have nk : ∀ y, ¬ Edge s.value y r := fun y hy =>
        hrk (HG.key_of_senders ((HG.edge_value hs y r).mp hy))
      constructor
      · intro h
        have := HG.key_of_senders ((HG.edge_value ok x r).mp h)
        rw [hkeys] at this
        exact absurd this hrk
      · intro h
        exfalso
        by_cases hx : Touched c owner x
        · rw [if_pos hx, ← mem_receiversVal] at h
          unfold receiversVal at h
          have nr : ∀ y, r ∉ Dict.getD (getReceivers s.value) y := fun y hy =>
            nk y ((mem_getReceivers _ _ _).mp hy)
          have none_of : ∀ (op : Oper) (a b : List α), r ∉ a → r ∉ b → r ∉ op.val a b := by
            intro op a b h1 h2 h3
            rw [mem_val] at h3
            cases op <;> simp [OperHolds, h1, h2] at h3
          by_cases hxo : x = owner
          · rw [if_pos hxo] at h
            refine none_of _ _ _ (nr _) ?_ h
            rw [mem_unionAll]
            rintro ⟨l, hl, hr'⟩
            obtain ⟨n, _, rfl⟩ := List.mem_map.mp hl
            exact nr n hr'
          · rw [if_neg hxo] at h
            exact none_of _ _ _ (nr _) (nr _) h
        · rw [if_neg hx] at h; exact nk x h
  refine ⟨by rw [HG.keys_value, HG.keys_value, hkeys], hsend, fun x r hx => ?_, fun x r hx hr => ?_⟩
  · by_cases hr : Touched c owner r
    · rw [hsend x r hr, ← mem_sendersVal c owner hs, ← mem_receiversVal]
      exact ha x r hx hr
    · rw [huntouched x r hr, if_pos hx]
  · rw [huntouched x r hr, if_neg hx]

end OpCond
end GS

import Verif.GSCArgsLemmas
import Verif.Props.GSC

/-!
# Options of structural conditions (C87, C88, C89)

`construct cls nodes o H` is a call of the class `cls` with subjects `nodes` and options `o`
when the existing dicts are `H`; it gives the dicts afterwards and the condition or an error.
`construction H calls` is what any number of further calls makes of the dicts.
-/

set_option linter.unusedSectionVars false

namespace GS.Props

open GS GS.Spec

variable {α : Type _} [DecidableEq α]

/-! ## C87 -/

theorem resolve_of_ops {c : RawCond α} {H : Dicts α} {o1 o2 : Oper} {f g : α → Oper}
    (h1 : c.ownerSenders = .op o1) (h2 : c.ownerReceivers = .op o2)
    (h3 : ∀ n ∈ c.nodes, getSubject H c.subjectSenders n = .ok (.op (f n)) ∧
      getSubject H c.subjectReceivers n = .ok (.op (g n))) :
    ∃ f' g', c.resolve H = .ok (c.withOps o1 o2 f' g') ∧ (∀ n ∈ c.nodes, f' n = f n) ∧
      ∀ n ∈ c.nodes, g' n = g n := by
  have hs : ∀ n ∈ c.nodes, subjectOps H c.subjectSenders c.subjectReceivers n = .ok (f n, g n) :=
    fun n hn => subjectOps_ok.2 (h3 n hn)
  have hff : firstFailure H c.subjectSenders c.subjectReceivers c.nodes = none :=
    firstFailure_none.2 fun n hn => ⟨_, hs n hn⟩
  unfold RawCond.resolve
  rw [h1, h2]
  simp only [callable]
  rw [hff]
  refine ⟨_, _, rfl, ?_, ?_⟩
  · intro n hn; simp only [hs n hn]
  · intro n hn; simp only [hs n hn]

theorem ownerMeans_parse {a : Option Arg} {d o : Oper} (h : OwnerMeans a d o) :
    parseArg (a.getD (.op d)) = .op o := by
  cases a with
  | some a => exact parse_of_denotes h
  | none => have h : o = d := h; subst h; rfl

theorem subjectMeans_parse {H : Dicts α} {s : Option Subj} {d : Oper} {n : α} {o : Oper}
    (h : SubjectMeans H s d n o) :
    (getSubject H (s.getD (.one (.op d))) n).map parseArg = .ok (.op o) := by
  cases s with
  | some s => exact gives_iff.1 h
  | none => have h : o = d := h; subst h; rfl

theorem defaults_ownerSenders (cls : Cls) : cls.ownerSenders = (defaults (family cls)).1 := by
  cases cls <;> rfl
theorem defaults_ownerReceivers (cls : Cls) : cls.ownerReceivers = (defaults (family cls)).2.1 := by
  cases cls <;> rfl
theorem defaults_subjectSenders (cls : Cls) : cls.subjectSenders = (defaults (family cls)).2.2.1 := by
  cases cls <;> rfl
theorem defaults_subjectReceivers (cls : Cls) :
    cls.subjectReceivers = (defaults (family cls)).2.2.2 := by
  cases cls <;> rfl

/-- C87: if the options of a call mean operations - members of `Operation`, names in any
case, one for all subjects or a dict, or the defaults - then the condition is created, and
whatever conditions are created later, also with the same dicts, it does to every graph what
those operations say. -/
theorem C87_meaning {H : Dicts α} (hw : ∀ d, Dict.WF (H d)) {cls : Cls} {nodes : List α} {o : Opts}
    {o1 o2 : Oper} {f g : α → Oper} (hn : RightNumber cls nodes) (hh : HasOptions cls o)
    (hs : OnlySubjects H nodes o.subjectSenders) (ht : OnlySubjects H nodes o.subjectReceivers)
    (hm : Means H (family cls) nodes o o1 o2 f g) :
    ∃ c, (construct cls nodes o H).2 = .ok c ∧
      ∀ (later : List (NewCond α)) (cyc : Graph α → List (List α)) (owner : α) (s : HG α),
        c.modifyGraph cyc (construction (construct cls nodes o H).1 later) owner s =
        (GSC.reposition (intended cls nodes o o1 o2 f g)).modifyGraph cyc owner s := by
  have hE := construct_evolves cls nodes o hw
  obtain ⟨c, hc, k1, k2, k3, k4, k5, k6, k7, k8, k9⟩ := construct_ok cls nodes o hw hn hh hs ht
  refine ⟨c, hc, ?_⟩
  intro later cyc owner s
  have hL := construction_evolves later (hE.wf hw)
  have e1 : c.ownerSenders = .op o1 := by
    rw [k3, defaults_ownerSenders]; exact ownerMeans_parse hm.ownerSenders
  have e2 : c.ownerReceivers = .op o2 := by
    rw [k4, defaults_ownerReceivers]; exact ownerMeans_parse hm.ownerReceivers
  have e3 : ∀ n ∈ c.nodes, getSubject (construction (construct cls nodes o H).1 later)
      c.subjectSenders n = .ok (.op (f n)) ∧
      getSubject (construction (construct cls nodes o H).1 later) c.subjectReceivers n =
        .ok (.op (g n)) := by
    intro n hn
    rw [k2] at hn
    obtain ⟨a, b⟩ := k5 _ n hL hn
    refine ⟨a.trans ?_, b.trans ?_⟩
    · unfold senderSubj; rw [defaults_subjectSenders]
      exact subjectMeans_parse (hm.subjectSenders n hn)
    · unfold receiverSubj; rw [defaults_subjectReceivers]
      exact subjectMeans_parse (hm.subjectReceivers n hn)
  obtain ⟨f', g', hres, hf, hg⟩ := resolve_of_ops e1 e2 e3
  unfold RawCond.modifyGraph GSC.modifyGraph
  have hin : c.inGraph owner s = (GSC.reposition
      (intended cls nodes o o1 o2 f g)).inGraph owner s := by
    unfold RawCond.inGraph GSC.inGraph GSC.nodes
    rw [k2]
    rfl
  rw [hin]
  split
  · rfl
  · simp only
    unfold OpCond.modify
    have hnodes : (intended cls nodes o o1 o2 f g).nodes = nodes := rfl
    rw [hnodes]
    have hval : c.allValid owner s = true ↔ (nodes.filter
        ((intended cls nodes o o1 o2 f g).valid owner s.clone)).length =
          nodes.length := by
      unfold RawCond.allValid
      rw [decide_eq_true_iff, k2]
      have : (c.withOps .keep .keep (fun _ => .keep) (fun _ => .keep)).valid owner s.clone =
          (intended cls nodes o o1 o2 f g).valid owner s.clone := by
        funext n
        unfold OpCond.valid RawCond.withOps intended
        simp only [k1]
      rw [this]
    by_cases hv : c.allValid owner s = true
    · rw [if_pos hv, if_pos (hval.1 hv)]
    · rw [if_neg hv, if_neg (fun h => hv (hval.2 h)), hres]
      simp only
      have := OpCond.transform_congr cyc
        (intended cls nodes o o1 o2 f g) f' g'
        (fun n hn => hf n (k2 ▸ hn)) (fun n hn => hg n (k2 ▸ hn)) owner s.clone
      rw [← this]
      unfold RawCond.withOps intended
      simp only [k1, k2, k6, k7, k8, k9]

/-- C87: an option stands for at most one operation. -/
theorem C87_one {a : Arg} {o o' : Oper} (h : Denotes a o) (h' : Denotes a o') : o = o' := by
  have h1 := parse_of_denotes h
  have h2 := parse_of_denotes h'
  rw [h1] at h2
  exact Arg.op.inj h2

/-- C87: names that differ only in case stand for the same operations. -/
theorem C87_case {w w' : Word} (h : w.map Char.toLower = w'.map Char.toLower) (o : Oper) :
    Denotes (.name w) o ↔ Denotes (.name w') o := by
  unfold Denotes
  simp only
  rw [h]

/-- The dict `{1: 'Keep', 2: 'REPLACE'}`. -/
def argDicts : Dicts Nat := fun d =>
  if d = 0 then [(1, .name "Keep".toList), (2, .name "REPLACE".toList)] else []

/-- `BeforeNodes(1, 2, owner_senders='mErGe', subject_senders={1: 'Keep', 2: 'REPLACE'})`. -/
def argOpts : Opts :=
  { ownerSenders := some (.name "mErGe".toList), subjectSenders := some (.dict 0) }

theorem argDicts_wf : ∀ d, Dict.WF (argDicts d) := by
  intro d
  unfold argDicts
  split
  · decide
  · exact List.nodup_nil

/-- The options of the example mean MERGE, KEEP, KEEP for 1 and REPLACE for 2, and KEEP. -/
theorem argOpts_means : Means argDicts .before [1, 2] argOpts .merge .keep
    (fun n => if n = 1 then .keep else .replace) (fun _ => .keep) where
  ownerSenders := by
    show Denotes (.name "mErGe".toList) .merge
    unfold Denotes; decide +kernel
  ownerReceivers := rfl
  subjectSenders := by
    intro n hn
    rcases List.mem_cons.1 hn with e | hn
    · subst e
      exact ⟨.name "Keep".toList, by decide +kernel, by unfold Denotes; decide +kernel⟩
    · cases List.mem_singleton.1 hn
      exact ⟨.name "REPLACE".toList, by decide +kernel, by unfold Denotes; decide +kernel⟩
  subjectReceivers := fun _ _ => rfl

example : RightNumber .beforeNodes [1, 2] ∧ HasOptions .beforeNodes argOpts ∧
    OnlySubjects argDicts [1, 2] argOpts.subjectSenders ∧
    OnlySubjects argDicts [1, 2] argOpts.subjectReceivers := by
  refine ⟨(fun h => by cases h), (fun h => by cases h), ?_, (fun d e => by cases e)⟩
  intro d e
  cases e
  decide +kernel

/-! ## C88 -/

/-- C88, the part that holds when the condition is created: a wrong number of subjects, an
option the class does not have or a dict with a key that is not a subject is an error, and
everything else is accepted.  What is missing: options that mean no operation are accepted
(`C88_missing_accepted`, `C88_unknown_accepted`). -/
theorem C88_rejected_partial {H : Dicts α} (hw : ∀ d, Dict.WF (H d)) (cls : Cls) (nodes : List α) (o : Opts) :
    (∃ c, (construct cls nodes o H).2 = .ok c) ↔
      RightNumber cls nodes ∧ HasOptions cls o ∧ OnlySubjects H nodes o.subjectSenders ∧
        OnlySubjects H nodes o.subjectReceivers := by
  constructor
  · rintro ⟨c, hc⟩
    apply Classical.byContradiction
    intro h
    obtain ⟨e, he, _⟩ := construct_error cls nodes o hw h
    rw [he] at hc
    cases hc
  · rintro ⟨h1, h2, h3, h4⟩
    obtain ⟨c, hc, _⟩ := construct_ok cls nodes o hw h1 h2 h3 h4
    exact ⟨c, hc⟩

/-- C88: what is rejected when the condition is created is rejected with a `ConditionError`,
or a `TypeError` for `WithNode`. -/
theorem C88_kind {H : Dicts α} (hw : ∀ d, Dict.WF (H d)) {cls : Cls} {nodes : List α} {o : Opts} {e : Err}
    (h : (construct cls nodes o H).2 = .error e) :
    e = .conditionError ∨ (e = .typeError ∧ cls = .withNode) := by
  have hn : ¬ (RightNumber cls nodes ∧ HasOptions cls o ∧ OnlySubjects H nodes o.subjectSenders ∧
      OnlySubjects H nodes o.subjectReceivers) := by
    intro h'
    obtain ⟨c, hc⟩ := (C88_rejected_partial hw cls nodes o).2 h'
    rw [hc] at h
    cases h
  obtain ⟨e', he, h'⟩ := construct_error cls nodes o hw hn
  rw [he] at h
  cases h
  exact h'

theorem ownerMeans_exists {a : Option Arg} {d : Oper}
    (h : ∃ o, parseArg (a.getD (.op d)) = .op o) : ∃ o, OwnerMeans a d o := by
  obtain ⟨o, h⟩ := h
  cases a with
  | some a => exact ⟨o, denotes_of_parse h⟩
  | none => exact ⟨d, rfl⟩

theorem subjectMeans_exists {H : Dicts α} {s : Option Subj} {d : Oper} {n : α}
    (h : ∃ o, (getSubject H (s.getD (.one (.op d))) n).map parseArg = .ok (.op o)) :
    ∃ o, SubjectMeans H s d n o := by
  obtain ⟨o, h⟩ := h
  cases s with
  | some s => exact ⟨o, gives_iff.2 h⟩
  | none => exact ⟨d, rfl⟩

theorem resolve_ok {c : RawCond α} {H : Dicts α} {oc : OpCond α} (h : c.resolve H = .ok oc) :
    (∃ o, c.ownerSenders = .op o) ∧ (∃ o, c.ownerReceivers = .op o) ∧
      ∀ n ∈ c.nodes, (∃ o, getSubject H c.subjectSenders n = .ok (.op o)) ∧
        ∃ o, getSubject H c.subjectReceivers n = .ok (.op o) := by
  unfold RawCond.resolve at h
  cases h1 : c.ownerSenders with
  | name w => rw [h1] at h; cases h
  | op o1 =>
    rw [h1] at h
    simp only [callable] at h
    cases h2 : c.ownerReceivers with
    | name w => rw [h2] at h; cases h
    | op o2 =>
      rw [h2] at h
      simp only at h
      cases h3 : firstFailure H c.subjectSenders c.subjectReceivers c.nodes with
      | some e => rw [h3] at h; cases h
      | none =>
        refine ⟨⟨_, rfl⟩, ⟨_, rfl⟩, ?_⟩
        intro n hn
        obtain ⟨⟨p, q⟩, hr⟩ := firstFailure_none.1 h3 n hn
        obtain ⟨a, b⟩ := subjectOps_ok.1 hr
        exact ⟨⟨_, a⟩, ⟨_, b⟩⟩

/-- C88: an option that means no operation is never ignored when the condition has something
to do: if the owner is not already placed for every subject, applying the condition to a
graph gives an error, not a graph. -/
theorem C88_never_applied {H : Dicts α} (hw : ∀ d, Dict.WF (H d)) {cls : Cls} {nodes : List α} {o : Opts}
    {c : RawCond α} (hc : (construct cls nodes o H).2 = .ok c)
    (hm : ¬ ∃ o1 o2 f g, Means H (family cls) nodes o o1 o2 f g)
    (later : List (NewCond α)) (cyc : Graph α → List (List α)) (owner : α) (s : HG α) (hs : s.Ok)
    (hp : ∀ oc : OpCond α, oc.kind = family cls → oc.nodes = nodes → ¬ AlreadyPlaced oc owner s.value) :
    ∃ e, c.modifyGraph cyc (construction (construct cls nodes o H).1 later) owner s = .error e := by
  have hE := construct_evolves cls nodes o hw
  obtain ⟨h1, h2, h3, h4⟩ := (C88_rejected_partial hw cls nodes o).1 ⟨c, hc⟩
  obtain ⟨c', hc', k1, k2, k3, k4, k5, -⟩ := construct_ok cls nodes o hw h1 h2 h3 h4
  rw [hc] at hc'
  cases hc'
  have hL := construction_evolves later (hE.wf hw)
  unfold RawCond.modifyGraph
  split
  · exact ⟨_, rfl⟩
  · have hv : ¬ c.allValid owner s = true := by
      intro hv
      unfold RawCond.allValid at hv
      rw [decide_eq_true_iff] at hv
      have := hp (c.withOps .keep .keep (fun _ => .keep) (fun _ => .keep)) k1 k2
      apply this
      refine (valid_iff hs).1 ?_
      intro n hn
      have := List.length_filter_eq_length_iff.1 hv
      exact this n hn
    rw [if_neg hv]
    cases hr : c.resolve (construction (construct cls nodes o H).1 later) with
    | error e => exact ⟨_, rfl⟩
    | ok oc =>
      exfalso
      apply hm
      obtain ⟨⟨o1, r1⟩, ⟨o2, r2⟩, r3⟩ := resolve_ok hr
      rw [k3, defaults_ownerSenders] at r1
      rw [k4, defaults_ownerReceivers] at r2
      obtain ⟨p1, q1⟩ := ownerMeans_exists ⟨o1, r1⟩
      obtain ⟨p2, q2⟩ := ownerMeans_exists ⟨o2, r2⟩
      have hf : ∀ n, ∃ p, n ∈ nodes →
          SubjectMeans H o.subjectSenders (defaults (family cls)).2.2.1 n p := by
        intro n
        by_cases hn : n ∈ nodes
        · obtain ⟨⟨p, hp⟩, -⟩ := r3 n (k2 ▸ hn)
          rw [(k5 _ n hL hn).1, senderSubj, defaults_subjectSenders] at hp
          obtain ⟨p, hp⟩ := subjectMeans_exists ⟨p, hp⟩
          exact ⟨p, fun _ => hp⟩
        · exact ⟨.keep, fun h => absurd h hn⟩
      have hg : ∀ n, ∃ p, n ∈ nodes →
          SubjectMeans H o.subjectReceivers (defaults (family cls)).2.2.2 n p := by
        intro n
        by_cases hn : n ∈ nodes
        · obtain ⟨-, p, hp⟩ := r3 n (k2 ▸ hn)
          rw [(k5 _ n hL hn).2, receiverSubj, defaults_subjectReceivers] at hp
          obtain ⟨p, hp⟩ := subjectMeans_exists ⟨p, hp⟩
          exact ⟨p, fun _ => hp⟩
        · exact ⟨.keep, fun h => absurd h hn⟩
      exact ⟨p1, p2, fun n => Classical.choose (hf n), fun n => Classical.choose (hg n), q1, q2,
        fun n hn => Classical.choose_spec (hf n) hn, fun n hn => Classical.choose_spec (hg n) hn⟩

/-- The dict `{1: KEEP}`, used for subjects 1 and 2. -/
def shortDict : Dicts Nat := fun d => if d = 0 then [(1, .op .keep)] else []

/-- Whether a call is accepted, and what applying the condition then gives. -/
def tryOut (cls : Cls) (nodes : List Nat) (o : Opts) (H : Dicts Nat) (owner : Nat) (g : Graph Nat) :
    Except Err (Except Err (Graph Nat)) :=
  match (construct cls nodes o H).2 with
  | .error e => .error e
  | .ok c => .ok (match c.modifyGraph (fun _ => []) (construct cls nodes o H).1 owner (HG.load g) with
    | .ok s => .ok s.value
    | .error e => .error e)

/-- C88 is false as stated: a dict without an entry for a subject is accepted, although an
operation for each subject is required; it fails only when the condition is applied. -/
theorem C88_missing_accepted :
    (¬ ∃ p, SubjectMeans shortDict (some (.dict 0)) .keep 2 p) ∧
    tryOut .beforeNodes [1, 2] { subjectSenders := some (.dict 0) } shortDict 3
      [(0, []), (1, [0]), (2, [1]), (3, [])] = .ok (.error .conditionError) := by
  refine ⟨?_, by decide +kernel⟩
  rintro ⟨p, a, h, _⟩
  exact absurd h (by unfold shortDict; simp [Dict.get?])

/-- C88 is false as stated: a name that is not one of an operation is accepted, and fails
with a `TypeError` only when the condition is applied. -/
theorem C88_unknown_accepted :
    (¬ ∃ p, Denotes (.name "merged".toList) p) ∧
    tryOut .beforeNodes [1] { ownerSenders := some (.name "merged".toList) } (fun _ => []) 3
      [(0, []), (1, [0]), (2, [1]), (3, [])] = .ok (.error .typeError) := by
  refine ⟨?_, by decide +kernel⟩
  rintro ⟨p, h⟩
  revert h
  unfold Denotes
  cases p <;> decide +kernel

/-- C88: where the owner already is in place, not even then is the unknown name noticed. -/
theorem C88_unnoticed :
    tryOut .beforeNodes [1] { ownerSenders := some (.name "merged".toList) } (fun _ => []) 3
      [(0, []), (1, [0, 3]), (2, [1]), (3, [])] =
      .ok (.ok [(0, []), (1, [0, 3]), (2, [1]), (3, [])]) := by decide +kernel

/-- The hypotheses of `C88_never_applied` are met by `BeforeNodes(1, owner_senders='merged')`
owned by 3. -/
example : (∃ c : RawCond Nat, (construct .beforeNodes [1]
      { ownerSenders := some (.name "merged".toList) } (fun _ => [])).2 = .ok c) ∧
    (¬ ∃ o1 o2 f g, Means (fun _ => []) .before [1]
      { ownerSenders := some (.name "merged".toList) } o1 o2 f g) ∧
    gscGraph.Ok ∧
    ∀ oc : OpCond Nat, oc.kind = .before → oc.nodes = [1] → ¬ AlreadyPlaced oc 3 gscGraph.value := by
  refine ⟨⟨_, rfl⟩, ?_, gscGraph_ok, ?_⟩
  · rintro ⟨o1, _, _, _, h⟩
    exact C88_unknown_accepted.1 ⟨o1, h.ownerSenders⟩
  · intro oc hk hn h
    have h1 := h 1 (by rw [hn]; exact List.mem_singleton.2 rfl)
    rw [hk] at h1
    have h1 : Edge gscGraph.value 3 1 := h1
    rw [HG.edge_value gscGraph_ok] at h1
    exact absurd h1 (by decide +kernel)

/-! ## C89 -/

/-- C89: no call, whether it succeeds or fails, changes which nodes a dict names, or what the
entry of a node means. -/
theorem C89_dicts_partial {H : Dicts α} (hw : ∀ d, Dict.WF (H d)) (calls : List (NewCond α)) (d : DictId) :
    Dict.keys (construction H calls d) = Dict.keys (H d) ∧
    ∀ n o, GivesOper (construction H calls) (.dict d) n o ↔ GivesOper H (.dict d) n o := by
  have hE := construction_evolves calls hw
  refine ⟨hE.keys d, ?_⟩
  intro n o
  rw [gives_iff, gives_iff]
  unfold getSubject
  simp only
  rcases hE.entry d n with e | e
  · rw [e]
  · rw [e]
    cases Dict.get? (H d) n with
    | none => exact Iff.rfl
    | some a =>
      show Except.ok (parseArg (parseArg a)) = _ ↔ Except.ok (parseArg a) = _
      rw [parse_idem]

/-- C89: an entry that names no operation is left as it is. -/
theorem C89_unknown_kept {H : Dicts α} (hw : ∀ d, Dict.WF (H d)) (calls : List (NewCond α)) {d : DictId}
    {n : α} {a : Arg} (h : Dict.get? (H d) n = some a) (hu : ¬ ∃ o, Denotes a o) :
    Dict.get? (construction H calls d) n = some a := by
  have hE := construction_evolves calls hw
  rcases hE.entry d n with e | e
  · rw [e, h]
  · rw [e, h]
    show some (parseArg a) = some a
    cases hp : parseArg a with
    | op o => exact absurd ⟨o, denotes_of_parse hp⟩ hu
    | name w => rw [parse_name hp]

/-- C89: creating further conditions, also with the same dicts and also when that fails, does
not change what a condition does, not even one with an option that means nothing. -/
theorem C89_independent {H : Dicts α} (hw : ∀ d, Dict.WF (H d)) {cls : Cls} {nodes : List α} {o : Opts}
    {c : RawCond α} (hc : (construct cls nodes o H).2 = .ok c) (later : List (NewCond α))
    (cyc : Graph α → List (List α)) (owner : α) (s : HG α) :
    c.modifyGraph cyc (construction (construct cls nodes o H).1 later) owner s =
      c.modifyGraph cyc (construct cls nodes o H).1 owner s := by
  have hE := construct_evolves cls nodes o hw
  obtain ⟨h1, h2, h3, h4⟩ := (C88_rejected_partial hw cls nodes o).1 ⟨c, hc⟩
  obtain ⟨c', hc', k1, k2, k3, k4, k5, -⟩ := construct_ok cls nodes o hw h1 h2 h3 h4
  rw [hc] at hc'
  cases hc'
  have hL := construction_evolves later (hE.wf hw)
  have hget : ∀ n ∈ c.nodes, subjectOps (construction (construct cls nodes o H).1 later)
      c.subjectSenders c.subjectReceivers n =
      subjectOps (construct cls nodes o H).1 c.subjectSenders c.subjectReceivers n := by
    intro n hn
    rw [k2] at hn
    obtain ⟨a1, b1⟩ := k5 _ n hL hn
    obtain ⟨a2, b2⟩ := k5 _ n (Evolves.refl _) hn
    unfold subjectOps
    rw [a1, b1, a2, b2]
  have hff : firstFailure (construction (construct cls nodes o H).1 later) c.subjectSenders
      c.subjectReceivers c.nodes =
      firstFailure (construct cls nodes o H).1 c.subjectSenders c.subjectReceivers c.nodes := by
    generalize c.nodes = ns at hget ⊢
    induction ns with
    | nil => rfl
    | cons n ns ih =>
      unfold firstFailure
      rw [hget n (List.mem_cons_self ..), ih fun m hm => hget m (List.mem_cons_of_mem _ hm)]
  unfold RawCond.modifyGraph
  split
  · rfl
  · split
    · rfl
    · unfold RawCond.resolve
      cases callable c.ownerSenders with
      | error e => rfl
      | ok o1 =>
        cases callable c.ownerReceivers with
        | error e => rfl
        | ok o2 =>
          simp only
          rw [hff]
          cases firstFailure (construct cls nodes o H).1 c.subjectSenders c.subjectReceivers c.nodes with
          | some e => rfl
          | none =>
            simp only
            have := OpCond.transform_congr cyc (c.withOps o1 o2
              (fun n => (match subjectOps (construct cls nodes o H).1 c.subjectSenders
                c.subjectReceivers n with | .ok r => r | .error _ => (.keep, .keep)).1)
              (fun n => (match subjectOps (construct cls nodes o H).1 c.subjectSenders
                c.subjectReceivers n with | .ok r => r | .error _ => (.keep, .keep)).2))
              (fun n => (match subjectOps (construction (construct cls nodes o H).1 later)
                c.subjectSenders c.subjectReceivers n with | .ok r => r | .error _ => (.keep, .keep)).1)
              (fun n => (match subjectOps (construction (construct cls nodes o H).1 later)
                c.subjectSenders c.subjectReceivers n with | .ok r => r | .error _ => (.keep, .keep)).2)
              (by intro n hn; rw [hget n hn]; rfl) (by intro n hn; rw [hget n hn]; rfl) owner s.clone
            exact this

/-- C89 is false as stated: the constructor writes to the dict it is given. -/
theorem C89_written :
    (construct .beforeNodes [1, 2] argOpts argDicts).1 0 = [(1, .op .keep), (2, .op .replace)] ∧
    argDicts 0 = [(1, .name "Keep".toList), (2, .name "REPLACE".toList)] := by
  decide +kernel

/-- C89 is false as stated: also when the call fails, up to the entry that is rejected. -/
theorem C89_written_on_failure :
    (construct .beforeNodes [1] argOpts argDicts).2 = .error .conditionError ∧
    (construct .beforeNodes [1] argOpts argDicts).1 0 =
      [(1, .op .keep), (2, .name "REPLACE".toList)] := by
  constructor
  · have h := (handleSubject_ok [1] argDicts_wf (.dict 0)).2 (by
      intro h
      exact absurd (h 0 rfl 2 (by decide +kernel)) (by decide))
    unfold construct
    simp only [argOpts, Option.getD]
    rw [h]
    rfl
  · decide +kernel

/-- C89 is false as stated: the condition keeps the dict, so changing the dict afterwards
changes the condition. -/
theorem C89_kept_by_reference :
    ∃ c, (construct .beforeNodes [1] { subjectSenders := some (.dict 0) } shortDict).2 = .ok c ∧
      ∃ (H' : Dicts Nat) (s : HG Nat) (t t' : HG Nat),
        c.modifyGraph (fun _ => []) shortDict 3 s = .ok t ∧
        c.modifyGraph (fun _ => []) H' 3 s = .ok t' ∧ t.value ≠ t'.value := by
  refine ⟨_, rfl, fun d => if d = 0 then [(1, .op .discard)] else [],
    HG.load [(0, []), (1, [0]), (2, [1]), (3, [])], _, _, rfl, rfl, ?_⟩
  decide +kernel

end GS.Props

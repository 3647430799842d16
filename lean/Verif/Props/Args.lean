import Verif.Args
/-!
# The arguments a condition's function receives (C52, C59)
-/

set_option linter.unusedSectionVars false

namespace GS.Props
open GS
variable {V : Type _}

/-- The number of parameters without default that can be given by keyword. -/
def requiredCount (sig : Sig) : Nat :=
  (sig.filter fun p => p.byKeyword && !p.dflt).length

/-- The keyword is the name of a parameter that can be given by keyword. -/
def Named (sig : Sig) (n : String) : Prop := ∃ p ∈ sig, p.name = n ∧ p.byKeyword = true

theorem prune_vars (sig : Sig) (v : PruneVars) :
    (sig.foldl pruneParam v).hasArgs = (v.hasArgs || sig.hasVarPositional) ∧
    (sig.foldl pruneParam v).hasKwargs = (v.hasKwargs || sig.hasVarKeyword) ∧
    (sig.foldl pruneParam v).countPositional = v.countPositional + requiredCount sig ∧
    ∀ n, n ∈ (sig.foldl pruneParam v).names ↔ n ∈ v.names ∨ Named sig n := by
  induction sig generalizing v with
  | nil => simp [Sig.hasVarPositional, Sig.hasVarKeyword, requiredCount, Named]
  | cons p sig ih =>
    obtain ⟨h1, h2, h3, h4⟩ := ih (pruneParam v p)
    rw [List.foldl_cons]
    refine ⟨h1.trans ?_, h2.trans ?_, h3.trans ?_, fun n => (h4 n).trans ?_⟩
    · rcases hk : p.kind <;> simp [pruneParam, hk, Sig.hasVarPositional]
    · rcases hk : p.kind <;> simp [pruneParam, hk, Sig.hasVarKeyword]
    · unfold requiredCount
      rw [List.filter_cons]
      rcases hk : p.kind <;> rcases hd : p.dflt <;>
        simp [pruneParam, hk, hd, Param.byKeyword] <;> omega
    · rcases hk : p.kind <;> simp only [pruneParam, hk, Named, List.mem_cons, exists_eq_or_imp]
      all_goals simp only [Param.byKeyword, hk, reduceCtorEq, or_false, false_or, or_self,
        decide_false, Bool.false_eq_true, and_false, or_true, true_or, decide_true, and_true]
      all_goals
        constructor
        · rintro ((h | h) | h)
          · exact .inr (.inl h.symm)
          · exact .inl h
          · exact .inr (.inr h)
        · rintro (h | h | h)
          · exact .inl (.inr h)
          · exact .inl (.inl h.symm)
          · exact .inr h

theorem prune_args (sig : Sig) (args : List V) (kwargs : Dict String V) :
    (pruneUnusedArgs sig args kwargs).1 =
      if sig.hasVarPositional then args else args.take (requiredCount sig) := by
  obtain ⟨h1, _, h3, _⟩ := prune_vars sig {}
  simp only [Bool.false_or, Nat.zero_add] at h1 h3
  simp only [pruneUnusedArgs, h1, h3]

theorem get?_filter_key (d : Dict String V) (f : String → Bool) (k : String) :
    Dict.get? (d.filter fun p => f p.1) k = if f k then Dict.get? d k else none := by
  induction d with
  | nil => simp
  | cons p d ih =>
    obtain ⟨k', v⟩ := p
    rw [List.filter_cons]
    by_cases hk : k' = k
    · subst hk
      by_cases hf : f k' = true
      · simp [hf, Dict.get?_cons]
      · simp only [hf, Bool.false_eq_true, if_false]
        rw [ih]; simp [hf]
    · by_cases hf : f k' = true
      · simp only [hf, if_true, Dict.get?_cons, hk, if_false]; exact ih
      · simp only [hf, Bool.false_eq_true, if_false, Dict.get?_cons, hk]; exact ih

theorem prune_kwargs (sig : Sig) (args : List V) (kwargs : Dict String V) (n : String) (v : V) :
    Dict.get? (pruneUnusedArgs sig args kwargs).2 n = some v ↔
      Dict.get? kwargs n = some v ∧ (sig.hasVarKeyword = true ∨ Named sig n) := by
  obtain ⟨_, h2, _, h4⟩ := prune_vars sig {}
  simp only [Bool.false_or, List.not_mem_nil, false_or] at h2 h4
  simp only [pruneUnusedArgs, h2]
  by_cases hk : sig.hasVarKeyword = true
  · simp [hk]
  · simp only [hk, Bool.false_eq_true, if_false, false_or]
    rw [get?_filter_key kwargs (fun k => decide (k ∈ (sig.foldl pruneParam {}).names)) n]
    by_cases hn : Named sig n
    · simp [(h4 n).mpr hn, hn]
    · simp [mt (h4 n).mp hn, hn]

/-- The value with which a keyword is supplied when a condition is evaluated: the
execution id, else what evaluation supplies, else what construction supplied. -/
def Supplied (ckw : Dict String V) (e : V) (ekw : Dict String V) (n : String) (v : V) : Prop :=
  if n = "execution_id" then v = e
  else Dict.get? ekw n = some v ∨ (n ∉ Dict.keys ekw ∧ Dict.get? ckw n = some v)

/-- The function is called as C52 says: keywords it names (all, with `**kwargs`) with the
value supplied, and the first positional arguments, at most as many as it has parameters
without defaults (all, with `*args`). -/
def CalledRight (sig : Sig) (args : List V) (kw : String → V → Prop) (c : Call V) : Prop :=
  (∀ n v, Dict.get? c.kwargs n = some v ↔
    kw n v ∧ (sig.hasVarKeyword = true ∨ Named sig n)) ∧
  (sig.hasVarPositional = true → c.args = args) ∧
  (sig.hasVarPositional = false →
    c.args <+: args ∧ c.args.length = min (requiredCount sig) args.length)

theorem callPruned_right {sig : Sig} {args : List V} {kwargs : Dict String V} {c : Call V}
    (h : callPruned sig args kwargs = .ok c) :
    CalledRight sig args (fun n v => Dict.get? kwargs n = some v) c := by
  unfold callPruned at h
  split at h
  · cases h
  · cases h
    refine ⟨fun n v => prune_kwargs sig args kwargs n v, ?_, ?_⟩
    · intro hv
      simp only [prune_args, hv, if_true]
    · intro hv
      simp only [prune_args, hv, Bool.false_eq_true, if_false]
      exact ⟨List.take_prefix _ _, by simp⟩

theorem withExecutionId_ok {e : V} {ckw ekw kw : Dict String V} (hwf : Dict.WF ekw)
    (h : withExecutionId e (Dict.update ckw ekw) = .ok kw) (n : String) (v : V) :
    Dict.get? kw n = some v ↔ Supplied ckw e ekw n v := by
  unfold withExecutionId at h
  split at h
  · cases h
  · cases h
    unfold Supplied
    rw [Dict.get?_cons]
    by_cases hn : n = "execution_id"
    · simp [hn, eq_comm]
    · rw [if_neg (fun e => hn e.symm), if_neg hn, Dict.get?_update _ _ hwf, ← Dict.get?_eq_none]
      rcases Dict.get? ekw n with _ | v' <;> simp

/-- C52: evaluating a condition calls its function with the keywords it names (or all of
them, if it takes `**kwargs`), where values given at evaluation override those given at
construction, and with the first positional arguments (those of the construction come
first), never more than it has parameters without defaults unless it takes `*args`. -/
theorem C52_call {sig : Sig} {cargs eargs : List V} {ckw ekw : Dict String V} {e : V}
    {c : Call V} (hwf : Dict.WF ekw) (h : conditionCall sig cargs ckw eargs e ekw = .ok c) :
    CalledRight sig (cargs ++ eargs) (Supplied ckw e ekw) c := by
  unfold conditionCall at h
  rcases hw : withExecutionId e (Dict.update ckw ekw) with x | kw
  · rw [hw] at h; cases h
  · rw [hw] at h
    simp only at h
    obtain ⟨h1, h2, h3⟩ := callPruned_right h
    refine ⟨?_, h2, h3⟩
    intro n v
    rw [h1 n v]
    show Dict.get? kw n = some v ∧ _ ↔ _
    rw [withExecutionId_ok hwf hw n v]

/-- C52 for `WhileNot`. -/
theorem C52_whileNot {sig : Sig} {cargs eargs : List V} {ckw ekw : Dict String V} {e : V}
    {c : Call V} (hwf : Dict.WF ekw) (h : whileNotCall sig cargs ckw eargs e ekw = .ok c) :
    CalledRight sig (cargs ++ eargs) (Supplied ckw e ekw) c := by
  unfold whileNotCall at h
  rcases hc : conditionCall wrapperSig cargs ckw eargs e ekw with x | c1
  · rw [hc] at h; cases h
  · rw [hc] at h
    simp only at h
    obtain ⟨h1, h2, _⟩ := C52_call hwf hc
    obtain ⟨k1, k2, k3⟩ := callPruned_right h
    have hw : wrapperSig.hasVarPositional = true ∧ wrapperSig.hasVarKeyword = true := by decide
    rw [h2 hw.1] at k2 k3
    refine ⟨?_, k2, k3⟩
    intro n v
    rw [k1 n v]
    show Dict.get? c1.kwargs n = some v ∧ _ ↔ _
    rw [h1 n v]
    simp [hw.2]

/-- C52, when evaluation raises before the function is called: exactly if a keyword
`execution_id` was given at construction (or a keyword `func` anywhere). -/
theorem C52_collisions (sig : Sig) (cargs eargs : List V) (ckw ekw : Dict String V) (e : V)
    (hwf : Dict.WF ekw) :
    (∃ c, conditionCall sig cargs ckw eargs e ekw = .ok c) ↔
      "execution_id" ∉ Dict.keys ckw ∧ "execution_id" ∉ Dict.keys ekw ∧
      "func" ∉ Dict.keys ckw ∧ "func" ∉ Dict.keys ekw := by
  have hk : ∀ n, n ∈ Dict.keys (Dict.update ckw ekw) ↔ n ∈ Dict.keys ekw ∨ n ∈ Dict.keys ckw := by
    intro n
    rw [← Dict.get?_isSome, Dict.get?_update _ _ hwf, ← Dict.get?_isSome, ← Dict.get?_isSome]
    rcases Dict.get? ekw n with _ | v <;> simp
  unfold conditionCall withExecutionId callPruned
  by_cases h1 : "execution_id" ∈ Dict.keys (Dict.update ckw ekw)
  · rw [if_pos h1]
    simp only [reduceCtorEq, exists_false, false_iff]
    rintro ⟨a, b, _⟩
    exact ((hk _).mp h1).elim b a
  · rw [if_neg h1]
    simp only
    have h1' := mt (hk "execution_id").mpr h1
    simp only [not_or] at h1'
    by_cases h2 : "func" ∈ Dict.keys (Dict.update ckw ekw)
    · rw [if_pos (by simp [h2])]
      simp only [reduceCtorEq, exists_false, false_iff]
      rintro ⟨_, _, a, b⟩
      exact ((hk _).mp h2).elim b a
    · rw [if_neg (by simp [h2])]
      have h2' := mt (hk "func").mpr h2
      simp only [not_or] at h2'
      simp [h1', h2']

/-! ## C59: surplus arguments -/

/-- Python's rule for signatures without positional-only parameters: parameters without default come before those with one among the positional ones. -/
structure OrdinarySig (sig : Sig) : Prop where
  noPositionalOnly : ∀ p ∈ sig, p.kind ≠ .positionalOnly
  requiredFirst : ∃ k, sig.positional.take k = sig.positional.filter fun p => !p.dflt

/-- C59 (partial): if the function has no keyword-only parameter without default, then the
pruned call is accepted by Python whenever each parameter without default is supplied
once: by position if it is among the first ones, by keyword otherwise — whatever other
positional or keyword arguments are supplied. Missing: keyword-only parameters without
defaults, and keywords for parameters that are also supplied by position (see
`C59_surplus_keyword_only`, `C59_surplus_collides`). -/
theorem C59_surplus_partial {sig : Sig} {args : List V} {kwargs : Dict String V}
    (hsig : OrdinarySig sig) (hko : ∀ p ∈ sig, p.kind = .keywordOnly → p.dflt = true)
    (hnv : sig.hasVarPositional = false)
    (hfill : ∀ i p, (sig.positional.filter fun p => !p.dflt)[i]? = some p →
      (i < args.length ↔ p.name ∉ Dict.keys kwargs)) :
    let r := pruneUnusedArgs sig args kwargs
    sig.Accepts { args := r.1, kwargs := r.2 } := by
  intro r
  have hreq : requiredCount sig = (sig.positional.filter fun p => !p.dflt).length := by
    unfold requiredCount Sig.positional
    rw [List.filter_filter]
    congr 1
    apply List.filter_congr
    intro p hp
    have h1 := hsig.noPositionalOnly p hp
    have h2 := hko p hp
    rcases hk : p.kind <;> rcases hd : p.dflt <;>
      simp_all [Param.byKeyword]
  have hargs : r.1 = args.take (requiredCount sig) := by
    show (pruneUnusedArgs sig args kwargs).1 = _
    rw [prune_args, hnv]; rfl
  have hkeys : ∀ n, n ∈ Dict.keys r.2 ↔ n ∈ Dict.keys kwargs ∧ (sig.hasVarKeyword = true ∨ Named sig n) := by
    intro n
    rw [← Dict.get?_isSome, ← Dict.get?_isSome, Option.isSome_iff_exists, Option.isSome_iff_exists]
    constructor
    · rintro ⟨v, h⟩
      have := (prune_kwargs sig args kwargs n v).mp h
      exact ⟨⟨v, this.1⟩, this.2⟩
    · rintro ⟨⟨v, h⟩, h'⟩
      exact ⟨v, (prune_kwargs sig args kwargs n v).mpr ⟨h, h'⟩⟩
  obtain ⟨k, hk⟩ := hsig.requiredFirst
  -- the parameters filled by position
  have hlen : r.1.length = min (requiredCount sig) args.length := by rw [hargs]; simp
  have htake : sig.positional.take r.1.length =
      (sig.positional.filter fun p => !p.dflt).take r.1.length := by
    rw [← hk, List.take_take]
    congr 1
    have : r.1.length ≤ (sig.positional.filter fun p => !p.dflt).length := by
      rw [hlen, ← hreq]; exact Nat.min_le_left _ _
    rw [← hk, List.length_take] at this
    omega
  refine ⟨.inr ?_, ?_, ?_⟩
  · show r.1.length ≤ _
    rw [hlen, hreq]
    exact Nat.le_trans (Nat.min_le_left _ _) (List.length_filter_le _ _)
  · intro n hn
    obtain ⟨hn1, hn2⟩ := (hkeys n).mp hn
    by_cases hnamed : Named sig n
    · left
      obtain ⟨p, hp, he, hb⟩ := hnamed
      refine ⟨p, hp, he, hb, ?_⟩
      intro hm
      have hm' : p ∈ (sig.positional.filter fun p => !p.dflt).take r.1.length := htake ▸ hm
      obtain ⟨i, hi⟩ := List.mem_iff_getElem?.mp hm'
      have hi2 : i < r.1.length := by
        rcases Nat.lt_or_ge i r.1.length with h | h
        · exact h
        · rw [List.getElem?_take] at hi
          rw [if_neg (by omega)] at hi; cases hi
      rw [List.getElem?_take, if_pos hi2] at hi
      have := (hfill i p hi).mp (by rw [hlen] at hi2; omega)
      exact this (he ▸ hn1)
    · right
      refine ⟨?_, hn2.resolve_right hnamed⟩
      intro p hp he
      rcases hb : p.byKeyword
      · rfl
      · exact absurd ⟨p, hp, he, hb⟩ hnamed
  · intro p hp hd h1 h2
    have hkind : p.kind = .positionalOrKeyword := by
      have h3 := hsig.noPositionalOnly p hp
      have h4 := hko p hp
      rcases hk : p.kind <;> simp_all
    have hb : p.byKeyword = true := by simp [Param.byKeyword, hkind]
    have hmem : p ∈ sig.positional.filter fun p => !p.dflt :=
      List.mem_filter.mpr ⟨List.mem_filter.mpr ⟨hp, by simp [hkind]⟩, by simp [hd]⟩
    obtain ⟨i, hi⟩ := List.mem_iff_getElem?.mp hmem
    have hil : i < requiredCount sig := by
      rw [hreq]
      exact (List.getElem?_eq_some_iff.mp hi).1
    by_cases hia : i < args.length
    · left
      show p ∈ sig.positional.take r.1.length
      rw [htake, List.mem_iff_getElem?]
      refine ⟨i, ?_⟩
      rw [List.getElem?_take, if_pos (by rw [hlen]; omega)]
      exact hi
    · right
      refine ⟨hb, (hkeys _).mpr ⟨?_, .inr ⟨p, hp, rfl, hb⟩⟩⟩
      rcases Classical.em (p.name ∈ Dict.keys kwargs) with h | h
      · exact h
      · exact absurd ((hfill i p hi).mpr h) hia

/-- `def f(a, *, b)`. -/
def keywordOnlySig : Sig := [⟨"a", .positionalOrKeyword, false⟩, ⟨"b", .keywordOnly, false⟩]

/-- C59, negation: `Condition(f, 1, 2)` for `def f(a, *, b)`, evaluated with `b=3`: the
surplus positional argument is passed on and Python rejects the call, although without it
the call is accepted. -/
theorem C59_surplus_keyword_only :
    (∃ c, conditionCall keywordOnlySig [1, 2] [] [] 0 [("b", 3)] = .ok c ∧
      ¬ keywordOnlySig.Accepts c) ∧
    (∃ c, conditionCall keywordOnlySig [1] [] [] 0 [("b", 3)] = .ok c ∧
      keywordOnlySig.Accepts c) := by
  refine ⟨⟨⟨[1, 2], [("b", 3)]⟩, by decide, ?_⟩, ⟨⟨[1], [("b", 3)]⟩, by decide, ?_⟩⟩
  · rintro ⟨h, _⟩
    revert h
    decide
  · refine ⟨by decide, ?_, ?_⟩
    · intro n hn
      simp only [Dict.keys, List.map_cons, List.map_nil, List.mem_singleton] at hn
      subst hn
      exact .inl ⟨⟨"b", .keywordOnly, false⟩, by decide, rfl, by decide, by decide⟩
    · decide

/-- `def f(dependency, scheduler)`. -/
def schedulerSig : Sig :=
  [⟨"dependency", .positionalOrKeyword, false⟩, ⟨"scheduler", .positionalOrKeyword, false⟩]

/-- C59, negation: `Condition(f, A, B)` for `def f(dependency, scheduler)`: the surplus
positional argument takes the place of the keyword `scheduler` that `run` supplies, and
Python rejects the call. -/
theorem C59_surplus_collides :
    (∃ c, conditionCall schedulerSig [1, 2] [] [] 0 [("scheduler", 3)] = .ok c ∧
      ¬ schedulerSig.Accepts c) ∧
    (∃ c, conditionCall schedulerSig [1] [] [] 0 [("scheduler", 3)] = .ok c ∧
      schedulerSig.Accepts c) := by
  refine ⟨⟨⟨[1, 2], [("scheduler", 3)]⟩, by decide, ?_⟩,
    ⟨⟨[1], [("scheduler", 3)]⟩, by decide, ?_⟩⟩
  · rintro ⟨_, h, _⟩
    rcases h "scheduler" (by decide) with ⟨p, hp, he, _, hn⟩ | ⟨h, _⟩
    · revert p; decide
    · exact absurd (h ⟨"scheduler", .positionalOrKeyword, false⟩ (by decide) rfl) (by decide)
  · refine ⟨by decide, ?_, by decide⟩
    intro n hn
    simp only [Dict.keys, List.map_cons, List.map_nil, List.mem_singleton] at hn
    subst hn
    exact .inl ⟨⟨"scheduler", .positionalOrKeyword, false⟩, by decide, rfl, by decide, by decide⟩

/-- The positional arguments that are passed on when `k` are supplied. -/
def passedOn (sig : Sig) (k : Nat) : Nat :=
  if sig.hasVarPositional then k else min (requiredCount sig) k

/-- C59, exactly when surplus arguments do no harm. Let the call with positional arguments
`A` and keywords `K` be legal, and let the condition be supplied with further positional
arguments `A'` and with the further keywords `extra`, which the function does not name. The
call that is made when the condition is evaluated is legal unless one of three things goes
wrong: more positional arguments are passed on than the function has positional parameters;
one of them takes the place of a parameter given by keyword; or one that the function needs is
not passed on. For each there is an example below. -/
theorem C59_exactly {sig : Sig} {A A' : List V} {K ckw ekw : Dict String V} {e : V}
    {c : Call V} {extra : String → Prop} (hnames : (sig.map (·.name)).Nodup)
    (hlegal : sig.Accepts { args := A, kwargs := K })
    (hwf : Dict.WF ekw)
    (hsup : ∀ n, (∃ v, Supplied ckw e ekw n v) ↔ n ∈ Dict.keys K ∨ extra n)
    (hextra : ∀ n, extra n → ¬ Named sig n)
    (hc : conditionCall sig (A ++ A') ckw [] e ekw = .ok c) :
    sig.Accepts c ↔
      (sig.hasVarPositional = true ∨
        passedOn sig (A.length + A'.length) ≤ sig.positional.length) ∧
      (∀ p ∈ sig.positional.take (passedOn sig (A.length + A'.length)),
        p.byKeyword = true → p.name ∉ Dict.keys K) ∧
      (∀ p ∈ sig.positional.take A.length, p.dflt = false →
        p ∈ sig.positional.take (passedOn sig (A.length + A'.length))) := by
  obtain ⟨h1, h2, h3⟩ := C52_call hwf hc
  rw [List.append_nil] at h2 h3
  have hlen : c.args.length = passedOn sig (A.length + A'.length) := by
    unfold passedOn
    split
    · next hv => rw [h2 hv]; simp
    · next hv => rw [(h3 (by simpa using hv)).2]; simp
  have hkeys : ∀ n, n ∈ Dict.keys c.kwargs ↔
      (n ∈ Dict.keys K ∨ extra n) ∧ (sig.hasVarKeyword = true ∨ Named sig n) := by
    intro n
    rw [← hsup n, ← Dict.get?_isSome, Option.isSome_iff_exists]
    constructor
    · rintro ⟨v, h⟩; exact ⟨⟨v, ((h1 n v).1 h).1⟩, ((h1 n v).1 h).2⟩
    · rintro ⟨⟨v, h⟩, h'⟩; exact ⟨v, (h1 n v).2 ⟨h, h'⟩⟩
  have huniq : ∀ p ∈ sig, ∀ q ∈ sig, p.name = q.name → p = q := by
    intro p hp q hq he
    obtain ⟨i, hi, rfl⟩ := List.mem_iff_getElem.1 hp
    obtain ⟨j, hj, rfl⟩ := List.mem_iff_getElem.1 hq
    have := (List.getElem_inj (xs := sig.map (·.name)) (i := i) (j := j) (h₀ := by simpa using hi)
      (h₁ := by simpa using hj) hnames).1 (by simpa using he)
    subst this; rfl
  have hpos : ∀ k, ∀ p ∈ sig.positional.take k, p ∈ sig := fun k p hp =>
    (List.mem_filter.1 (List.mem_of_mem_take hp)).1
  unfold Sig.Accepts
  rw [hlen]
  refine and_congr Iff.rfl (and_congr ?_ ?_)
  · constructor
    · intro h p hp hb hk
      have hn : Named sig p.name := ⟨p, hpos _ p hp, rfl, hb⟩
      rcases h p.name ((hkeys _).2 ⟨.inl hk, .inr hn⟩) with ⟨q, hq, he, _, hq'⟩ | ⟨hq, _⟩
      · rw [huniq q hq p (hpos _ p hp) he] at hq'; exact hq' hp
      · rw [hq p (hpos _ p hp) rfl] at hb; cases hb
    · intro h n hn
      obtain ⟨hn1, hn2⟩ := (hkeys n).1 hn
      by_cases hnamed : Named sig n
      · obtain ⟨p, hp, he, hb⟩ := hnamed
        refine .inl ⟨p, hp, he, hb, fun hp' => h p hp' hb ?_⟩
        rw [he]
        exact hn1.resolve_right fun hx => hextra n hx ⟨p, hp, he, hb⟩
      · refine .inr ⟨fun p hp he => ?_, hn2.resolve_right hnamed⟩
        rcases hb : p.byKeyword
        · rfl
        · exact absurd ⟨p, hp, he, hb⟩ hnamed
  · obtain ⟨_, l2, l3⟩ := hlegal
    constructor
    · intro h p hp hd
      have hps := hpos _ p hp
      have hkind := (List.mem_filter.1 (List.mem_of_mem_take hp)).2
      rcases h p hps hd (by intro hk; simp [hk] at hkind) (by intro hk; simp [hk] at hkind) with
        h | ⟨hb, h⟩
      · exact h
      · exfalso
        have hk : p.name ∈ Dict.keys K :=
          ((hkeys _).1 h).1.resolve_right fun hx => hextra _ hx ⟨p, hps, rfl, hb⟩
        rcases l2 _ hk with ⟨q, hq, he, _, hq'⟩ | ⟨hq, _⟩
        · rw [huniq q hq p hps he] at hq'; exact hq' hp
        · rw [hq p hps rfl] at hb; cases hb
    · intro h p hp hd k1 k2
      rcases l3 p hp hd k1 k2 with hl | ⟨hb, hk⟩
      · exact .inl (h p hl hd)
      · exact .inr ⟨hb, (hkeys _).2 ⟨.inl hk, .inr ⟨p, hp, rfl, hb⟩⟩⟩

/-- `def f(a, /)`. -/
def positionalOnlySig : Sig := [⟨"a", .positionalOnly, false⟩]

/-- C59, negation: `Condition(f, 1)` for `def f(a, /)`: `f(1)` is legal, but positional-only
parameters are not counted, the argument is dropped, and the call `f()` is rejected. So is
`Condition(f, 1, 2)`. -/
theorem C59_positional_only :
    positionalOnlySig.Accepts (V := Nat) ⟨[1], []⟩ ∧
    ∀ A : List Nat, ∃ c, conditionCall positionalOnlySig A [] [] 0 [] = .ok c ∧
      ¬ positionalOnlySig.Accepts c := by
  refine ⟨⟨by decide, by simp [Dict.keys], by decide⟩, fun A => ⟨⟨[], []⟩, ?_, ?_⟩⟩
  · simp [conditionCall, withExecutionId, callPruned, pruneUnusedArgs, positionalOnlySig, pruneParam,
      Dict.update, Dict.keys]
  · rintro ⟨_, _, h⟩
    have := h ⟨"a", .positionalOnly, false⟩ (by decide) rfl (by decide) (by decide)
    revert this
    decide

/-- `def f(a, b=0)`. -/
def optionalSig : Sig := [⟨"a", .positionalOrKeyword, false⟩, ⟨"b", .positionalOrKeyword, true⟩]

/-- C59: a positional argument for a parameter with a default is dropped silently:
`Condition(f, 1, 2)` for `def f(a, b=0)` calls `f(1)`, although `f(1, 2)` is legal. -/
theorem C59_default_dropped :
    optionalSig.Accepts (V := Nat) ⟨[1, 2], []⟩ ∧
    conditionCall optionalSig [1, 2] [] [] 0 [] = .ok ⟨[1], []⟩ :=
  ⟨⟨by decide, by simp [Dict.keys], by decide⟩, by decide⟩

/-- The hypotheses of `C59_exactly`: `Condition(f, 1, 5, x=7)` for `def f(a, b=0)`, evaluated
with `scheduler=3`. -/
example : (optionalSig.map (·.name)).Nodup ∧ optionalSig.Accepts (V := Nat) ⟨[1], []⟩ ∧
    (∀ n, (∃ v, Supplied [("x", 7)] 0 [("scheduler", 3)] n v) ↔
      n ∈ Dict.keys ([] : Dict String Nat) ∨ n ∈ ["x", "execution_id", "scheduler"]) ∧
    (∀ n, n ∈ ["x", "execution_id", "scheduler"] → ¬ Named optionalSig n) ∧
    conditionCall optionalSig ([1] ++ [5]) [("x", 7)] [] 0 [("scheduler", 3)] = .ok ⟨[1], []⟩ := by
  refine ⟨by decide, ⟨by decide, by simp [Dict.keys], by decide⟩, ?_, ?_, by decide⟩
  · intro n
    simp only [Supplied, Dict.keys, List.map_nil, List.not_mem_nil, false_or, List.mem_cons, or_false]
    by_cases h1 : n = "execution_id"
    · simp [h1]
    · by_cases h2 : n = "scheduler"
      · simp [h2, Dict.get?_cons]
      · by_cases h3 : n = "x"
        · simp [h3, Dict.get?_cons]
        · simp [h1, h2, h3, Dict.get?_cons, Ne.symm h2, Ne.symm h3]
  · rintro n hn ⟨p, hp, rfl, _⟩
    revert p
    decide

/-! ## The hypotheses can be met -/

/-- `Condition(f, 1)` evaluated by a run: `execution_id` is not a parameter of `f`. -/
example : conditionCall schedulerSig [1] [("x", 7)] [] 0 [("scheduler", 3)] =
    .ok ⟨[1], [("scheduler", 3)]⟩ := by decide

/-- The keyword given at evaluation wins. -/
example : conditionCall [⟨"scheduler", .positionalOrKeyword, false⟩] [] [("scheduler", 7)] [] 0
    [("scheduler", 3)] = .ok ⟨[], [("scheduler", 3)]⟩ := by decide

/-- Surplus keyword arguments do no harm. -/
example : OrdinarySig schedulerSig ∧
    (∀ p ∈ schedulerSig, p.kind = .keywordOnly → p.dflt = true) ∧
    schedulerSig.hasVarPositional = false ∧
    (∀ i p, (schedulerSig.positional.filter fun p => !p.dflt)[i]? = some p →
      (i < [1].length ↔ p.name ∉ Dict.keys [("scheduler", 3), ("execution_id", 0)])) := by
  refine ⟨⟨by decide, 2, by decide⟩, by decide, by decide, ?_⟩
  intro i p h
  match i with
  | 0 => cases h; decide
  | 1 => cases h; decide
  | i + 2 => simp [schedulerSig, Sig.positional] at h

end GS.Props

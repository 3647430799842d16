import Verif.Alias
/-!
# The text of a time

`repr` of `Time` and `SimpleTime`. The text of a quantity (`f'{self.absolute}'`) is made by
pint and is a parameter `quantity`; `aliases` is `_time_scale_aliases`.
-/

set_option linter.unusedSectionVars false

namespace GS

/-- `', '.join(l)` (time.py:304). -/
def Str.commaJoin : List Str → Str
  | [] => []
  | [x] => x
  | x :: y :: l => x ++ ", ".toList ++ Str.commaJoin (y :: l)

/-- time.py:295-298: the name under which a time scale is shown: its own, or its alias, in
lower case. -/
def TimeScale.shownName (aliases : Dict TimeScale Str) (ts : TimeScale) : Str :=
  match Dict.get? aliases ts with
  | none => Str.lower ts.name
  | some a => Str.lower a

/-- time.py:293 `sorted(TimeScale, reverse=True)`. -/
def TimeScale.coarsestFirst : List TimeScale :=
  [.life, .environment_sequence, .environment_state_update, .pass, .consideration_set_execution]

namespace Time

/-- time.py:290-304 `_time_repr`: the loop 293-302 and the join. -/
def timeRepr (aliases : Dict TimeScale Str) (t : Time) (exclusions : List TimeScale) : Str :=
  Str.commaJoin ((TimeScale.coarsestFirst.filter fun ts => ts ∉ exclusions).map fun ts =>
    ts.shownName aliases ++ ": ".toList ++ Nat.toDigits 10 (t.get ts))

/-- time.py:270, 376: `f'{self.absolute}, '` in absolute time, otherwise nothing. -/
def absStr (quantity : Rat → Str) (t : Time) : Str :=
  if t.absolute_enabled then quantity t.absolute ++ ", ".toList else []

/-- time.py:269-272 `Time.__repr__`. -/
def repr (quantity : Rat → Str) (aliases : Dict TimeScale Str) (t : Time) : Str :=
  "Time(".toList ++ (t.absStr quantity ++ t.timeRepr aliases [.life]) ++ ")".toList

/-- time.py:375-378 `SimpleTime.__repr__`, for the `SimpleTime` of the time `t`. -/
def simpleRepr (quantity : Rat → Str) (aliases : Dict TimeScale Str) (t : Time) : Str :=
  "Time(".toList ++ (t.absStr quantity ++ t.timeRepr aliases [.life, .pass]) ++ ")".toList

end Time

/-! ## Reading a text -/

theorem toDigits_inj {n m : Nat} (h : Nat.toDigits 10 n = Nat.toDigits 10 m) : n = m := by
  rw [← Nat.ofDigitChars_ten_toDigits (n := n), h, Nat.ofDigitChars_ten_toDigits]

theorem comma_digits (n : Nat) : ',' ∉ Nat.toDigits 10 n := by
  intro h
  have := Nat.isDigit_of_mem_toDigits (by omega) (by omega) h
  exact absurd this (by decide)

/-- What stands before the first comma, and what after it. -/
theorem comma_cut {a b x y : Str} (ha : ',' ∉ a) (hb : ',' ∉ b)
    (h : a ++ ',' :: x = b ++ ',' :: y) : a = b ∧ x = y := by
  induction a generalizing b with
  | nil =>
    cases b with
    | nil => simpa using h
    | cons c b => simp at h; exact absurd h.1 (by rintro rfl; simp at hb)
  | cons c a ih =>
    cases b with
    | nil => simp at h; exact absurd h.1 (by rintro rfl; simp at ha)
    | cons d b =>
      simp only [List.cons_append, List.cons.injEq] at h
      obtain ⟨rfl, h⟩ := h
      obtain ⟨rfl, rfl⟩ := ih (fun hc => ha (by simp [hc])) (fun hc => hb (by simp [hc])) h
      exact ⟨rfl, rfl⟩

/-- Joined fields with the same names: the numbers can be read off. -/
theorem commaJoin_inj (name : TimeScale → Str) (f g : TimeScale → Nat) (l : List TimeScale) :
    Str.commaJoin (l.map fun ts => name ts ++ ": ".toList ++ Nat.toDigits 10 (f ts)) =
      Str.commaJoin (l.map fun ts => name ts ++ ": ".toList ++ Nat.toDigits 10 (g ts)) ↔
    ∀ ts ∈ l, f ts = g ts := by
  constructor
  · intro h
    induction l with
    | nil => simp
    | cons a l ih =>
      cases l with
      | nil =>
        simp only [List.map_cons, List.map_nil, Str.commaJoin, List.append_cancel_left_eq] at h
        simpa using toDigits_inj h
      | cons b l =>
        simp only [List.map_cons, Str.commaJoin, List.append_assoc, List.append_cancel_left_eq] at h
        have e : ", ".toList = [',', ' '] := by decide
        simp only [e, List.cons_append, List.nil_append] at h
        obtain ⟨h1, h2⟩ := comma_cut (comma_digits _) (comma_digits _) h
        have := ih (by simpa only [List.map_cons, List.append_assoc] using (List.cons.inj h2).2)
        intro ts hts
        rcases List.mem_cons.mp hts with rfl | hts
        · exact toDigits_inj h1
        · exact this ts hts
  · intro h
    congr 1
    apply List.map_congr_left
    intro ts hts
    rw [h ts hts]

theorem commaJoin_commas (name : TimeScale → Str) (f g : TimeScale → Nat) (l : List TimeScale) :
    (Str.commaJoin (l.map fun ts => name ts ++ ": ".toList ++ Nat.toDigits 10 (f ts))).count ',' =
      (Str.commaJoin (l.map fun ts => name ts ++ ": ".toList ++ Nat.toDigits 10 (g ts))).count ',' := by
  have hz : ∀ n, (Nat.toDigits 10 n).count ',' = 0 := fun n => List.count_eq_zero.mpr (comma_digits n)
  induction l with
  | nil => rfl
  | cons a l ih =>
    cases l with
    | nil => simp [Str.commaJoin, hz]
    | cons b l =>
      simp only [List.map_cons, Str.commaJoin, List.count_append, hz] at ih ⊢
      omega

/-- Two texts with the same list of fields. -/
theorem text_inj {quantity : Rat → Str} (hq : ∀ r, ',' ∉ quantity r)
    (aliases : Dict TimeScale Str) (t t' : Time) (ex : List TimeScale) :
    "Time(".toList ++ (t.absStr quantity ++ t.timeRepr aliases ex) ++ ")".toList =
      "Time(".toList ++ (t'.absStr quantity ++ t'.timeRepr aliases ex) ++ ")".toList ↔
    t.absolute_enabled = t'.absolute_enabled ∧
    (t.absolute_enabled = true → quantity t.absolute = quantity t'.absolute) ∧
    ∀ ts, ts ∉ ex → t.at_ ts = t'.at_ ts := by
  have hmem : ∀ ts, ts ∈ (TimeScale.coarsestFirst.filter fun ts => ts ∉ ex) ↔ ts ∉ ex := by
    intro ts; simp; intro _; cases ts <;> simp [TimeScale.coarsestFirst]
  rw [List.append_cancel_right_eq, List.append_cancel_left_eq]
  have hj := commaJoin_inj (fun ts => ts.shownName aliases) t.at_ t'.at_
    (TimeScale.coarsestFirst.filter fun ts => ts ∉ ex)
  have hc := commaJoin_commas (fun ts => ts.shownName aliases) t.at_ t'.at_
    (TimeScale.coarsestFirst.filter fun ts => ts ∉ ex)
  have hqz : ∀ r, (quantity r).count ',' = 0 := fun r => List.count_eq_zero.mpr (hq r)
  have e1 : ∀ u : Time, u.timeRepr aliases ex = Str.commaJoin ((TimeScale.coarsestFirst.filter
    fun ts => ts ∉ ex).map fun ts => ts.shownName aliases ++ ": ".toList ++
      Nat.toDigits 10 (u.at_ ts)) := fun _ => rfl
  rw [e1, e1]
  simp only [hmem] at hj
  generalize Str.commaJoin (List.map (fun ts => ts.shownName aliases ++ ": ".toList ++
      Nat.toDigits 10 (t.at_ ts)) _) = j at hj hc ⊢
  generalize Str.commaJoin (List.map (fun ts => ts.shownName aliases ++ ": ".toList ++
      Nat.toDigits 10 (t'.at_ ts)) _) = j' at hj hc ⊢
  rw [← hj]
  unfold Time.absStr
  cases h1 : t.absolute_enabled <;> cases h2 : t'.absolute_enabled
  · simp
  · simp only [if_true, Bool.false_eq_true, if_false, List.nil_append]
    constructor
    · intro h
      have := congrArg (List.count ',') h
      simp [hqz] at this; omega
    · simp
  · simp only [if_true, Bool.false_eq_true, if_false, List.nil_append]
    constructor
    · intro h
      have := congrArg (List.count ',') h
      simp [hqz] at this; omega
    · simp
  · simp only [if_true, true_and, forall_const]
    constructor
    · intro h
      obtain ⟨a, b⟩ := comma_cut (hq _) (hq _) (by simpa [List.append_assoc] using h)
      exact ⟨a, by simpa using b⟩
    · rintro ⟨a, rfl⟩; rw [a]

end GS

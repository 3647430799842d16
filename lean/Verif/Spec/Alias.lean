import Verif.Alias

/-!
# What aliases of time scales are to do

Independent of how the code computes class names and replaces parts of names.
-/

namespace GS.Spec

/-- A word with its first letter in upper case and the rest in lower case. -/
def capitalised : Str → Str
  | [] => []
  | c :: cs => c.toUpper :: cs.map Char.toLower

/-- `name` consists of words with underscores between them, and `seg` of the same words
capitalised, as in `MY_SCALE` and `MyScale`. -/
def ClassName (name seg : Str) : Prop :=
  ∃ ws : List Str, ws ≠ [] ∧ (∀ w ∈ ws, w ≠ [] ∧ '_' ∉ w) ∧
    name = List.intercalate ['_'] ws ∧ seg = (ws.map capitalised).flatten

/-- `s'` is `s` with every occurrence of `old`, from left to right, replaced by `new`. -/
inductive Replaces (old new : Str) : Str → Str → Prop where
  | done (s : Str) : ¬ old <:+: s → Replaces old new s s
  | next (u v v' : Str) : ¬ old <:+: (u ++ old).dropLast → Replaces old new v v' →
      Replaces old new (u ++ old ++ v) (u ++ new ++ v')

/-- `name` can become a name of a time scale: it is no member of the enumeration, and no
alias so far. -/
structure Free (s : Names) (name : Str) : Prop where
  member : ∀ t : TimeScale, t.name ≠ name
  unused : ∀ p ∈ s.aliases, p.2 ≠ name

/-- No two names of the package that contain `old` become the same name. -/
def NoClash (s : Names) (old new : Str) : Prop :=
  ∀ x ∈ Dict.keys s.pkg, ∀ y ∈ Dict.keys s.pkg, old <:+: x → old <:+: y →
    ∀ z, Replaces old new x z → Replaces old new y z → x = y

/-- Nothing is called `name`, or has the class name `seg` as a part of its name. -/
structure Unmentioned (s : Names) (name seg : Str) : Prop where
  scale : name ∉ Dict.keys s.scale
  time : Str.lower name ∉ Dict.keys s.time
  simple : Str.lower name ∉ Dict.keys s.simple
  cond : ∀ x ∈ Dict.keys s.cond, ¬ seg <:+: x
  pkg : ∀ x ∈ Dict.keys s.pkg, ¬ seg <:+: x
  condAll : ∀ x ∈ s.condAll, ¬ seg <:+: x
  pkgAll : ∀ x ∈ s.pkgAll, ¬ seg <:+: x

end GS.Spec

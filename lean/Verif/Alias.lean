import Verif.Time

/-!
# Aliases of time scales (time.py:236-317, 365-400, 614-771)

`set_time_scale_alias` and `remove_time_scale_alias` change names in modules and
classes.  The model keeps those namespaces as dictionaries from names to values.

Simplifications.  Strings are lists of characters, and upper and lower case are those
of ASCII.  Docstrings (time.py:634-647, 691-706, 745-762) are not modelled, nor are
the values of names beyond what tells them apart.
-/

set_option linter.unusedSectionVars false

namespace GS

/-- Python `str`. -/
abbrev Str := List Char

namespace Str

/-- `s.lower()`. -/
def lower (s : Str) : Str := s.map Char.toLower

/-- `sub in s`. -/
def occurs (sub : Str) : Str → Bool
  | [] => sub.isEmpty
  | c :: cs => sub.isPrefixOf (c :: cs) || occurs sub cs

/-- The scan of `s.replace(old, new)` for a non-empty `old`: from left to right,
`skip` characters of a match are still to be dropped. -/
def replaceFrom (old new : Str) : Nat → Str → Str
  | _, [] => []
  | k + 1, _ :: cs => replaceFrom old new k cs
  | 0, c :: cs =>
    if old.isPrefixOf (c :: cs) then new ++ replaceFrom old new (old.length - 1) cs
    else c :: replaceFrom old new 0 cs

/-- `s.replace(old, new)` for a non-empty `old`. -/
def replace (old new s : Str) : Str := replaceFrom old new 0 s

/-- `s.split('_')`: `cur` is the part read so far. -/
def splitFrom (cur : Str) : Str → List Str
  | [] => [cur]
  | c :: cs => if c = '_' then cur :: splitFrom [] cs else splitFrom (cur ++ [c]) cs

/-- `f'{x[0].upper()}{x[1:].lower()}'` (time.py:631); `x[0]` raises `IndexError` if
`x` is empty. -/
def capital : Str → Except Err Str
  | [] => .error .indexError
  | c :: cs => .ok (c.toUpper :: lower cs)

/-- `''.join([... for x in ...])` of time.py:631. -/
def capitals : List Str → Except Err Str
  | [] => .ok []
  | x :: xs => match capital x with
    | .error e => .error e
    | .ok y => match capitals xs with
      | .error e => .error e
      | .ok ys => .ok (y ++ ys)

/-- time.py:624-631 `_time_scale_to_class_str` of a name. -/
def classStr (name : Str) : Except Err Str := capitals (splitFrom [] name)

end Str

namespace TimeScale

/-- The `name` of a member of `TimeScale` (time.py:85-89). -/
def name : TimeScale → Str
  | .consideration_set_execution => "CONSIDERATION_SET_EXECUTION".toList
  | .pass => "PASS".toList
  | .environment_state_update => "ENVIRONMENT_STATE_UPDATE".toList
  | .environment_sequence => "ENVIRONMENT_SEQUENCE".toList
  | .life => "LIFE".toList

/-- time.py:614-621 `_time_scale_to_attr_str`: `pass` is the only one of these names
that is a keyword. -/
def attr : TimeScale → Str
  | .pass => "pass_".toList
  | ts => Str.lower ts.name

/-- time.py:624-631 `_time_scale_to_class_str` of a member. -/
def className (ts : TimeScale) : Str :=
  match Str.classStr ts.name with
  | .ok s => s
  | .error _ => []

end TimeScale

/-- What a name can refer to: a time scale, the property made by time.py:676-682, or
something else. -/
inductive Val where
  | scale (ts : TimeScale)
  | prop (ts : TimeScale)
  | other (n : Nat)
deriving DecidableEq, Repr

/-- The names that time.py:650-771 reads and changes: `_time_scale_aliases`
(time.py:29), the attributes of the classes `TimeScale` (apart from its members),
`Time` and `SimpleTime`, the attributes of `graph_scheduler.condition` and of
`graph_scheduler`, and the lists `__all__` of these two modules. -/
structure Names where
  aliases : Dict TimeScale Str
  scale : Dict Str Val
  time : Dict Str Val
  simple : Dict Str Val
  cond : Dict Str Val
  pkg : Dict Str Val
  condAll : List Str
  pkgAll : List Str
deriving DecidableEq

namespace Names

/-- The scales that have `name` as their alias (time.py:659-662, 729-732). -/
def aliased (s : Names) (name : Str) : List TimeScale :=
  (s.aliases.filter fun p => p.2 = name).map Prod.fst

/-- `getattr(TimeScale, name)` for a name of a time scale (time.py:667).
Simplification: an attribute that is no time scale, such as a method, counts as
missing. -/
def scaleNamed (s : Names) (name : Str) : Option TimeScale :=
  match TimeScale.all.find? fun ts => ts.name = name with
  | some ts => some ts
  | none => match Dict.get? s.scale name with
    | some (.scale ts) => some ts
    | _ => none

/-- time.py:666-671: the target is a time scale, or a string that names one. -/
def target (s : Names) : TimeScale ⊕ Str → Except Err TimeScale
  | .inl ts => .ok ts
  | .inr name => match s.scaleNamed name with
    | some ts => .ok ts
    | none => .error .valueError

/-- The body of the loop of time.py:686-718 for one name of the package. -/
def addName (old new : Str) (s : Names) (p : Str × Val) : Names :=
  if Str.occurs old p.1 then
    let z := Str.replace old new p.1
    { s with
      cond := Dict.set s.cond z p.2
      pkg := Dict.set s.pkg z p.2
      condAll := s.condAll ++ [z]
      pkgAll := s.pkgAll ++ [z] }
  else s

/-- time.py:650-718 `set_time_scale_alias`.  Returns the names as they are after the
call, also if it raises.  Assigning to a member of an enumeration raises
`AttributeError`. -/
def setAlias (s : Names) (name : Str) (tgt : TimeScale ⊕ Str) : Names × Except Err Unit :=
  if s.aliased name ≠ [] then (s, .error .valueError) else
  match s.target tgt with
  | .error e => (s, .error e)
  | .ok ts =>
    let s1 := { s with aliases := Dict.set s.aliases ts name }
    if TimeScale.all.any fun t => t.name = name then (s1, .error .attributeError) else
    let s2 := { s1 with
      scale := Dict.set s1.scale name (.scale ts)
      time := Dict.set s1.time (Str.lower name) (.prop ts)
      simple := Dict.set s1.simple (Str.lower name) (.prop ts) }
    match Str.classStr name with
    | .error e => (s2, .error e)
    | .ok new => (s2.pkg.foldl (addName ts.className new) s2, .ok ())

/-- `delattr`: `AttributeError` if the name is missing. -/
def delattr (d : Dict Str Val) (x : Str) : Except Err (Dict Str Val) :=
  if (Dict.get? d x).isSome then .ok (Dict.erase d x) else .error .attributeError

/-- `l.remove(x)`: the first occurrence, `ValueError` if there is none. -/
def removeFirst (l : List Str) (x : Str) : Except Err (List Str) :=
  if x ∈ l then .ok (l.erase x) else .error .valueError

/-- time.py:767-771 for one name. -/
def dropName (s : Names) (x : Str) : Names × Except Err Unit :=
  match delattr s.cond x with
  | .error e => (s, .error e)
  | .ok c =>
    let s := { s with cond := c }
    match delattr s.pkg x with
    | .error e => (s, .error e)
    | .ok p =>
      let s := { s with pkg := p }
      match removeFirst s.condAll x with
      | .error e => (s, .error e)
      | .ok l =>
        let s := { s with condAll := l }
        match removeFirst s.pkgAll x with
        | .error e => (s, .error e)
        | .ok l => ({ s with pkgAll := l }, .ok ())

/-- The loop of time.py:745-771 over a copy of the names of the package. -/
def dropNames (new : Str) : List (Str × Val) → Names → Names × Except Err Unit
  | [], s => (s, .ok ())
  | p :: ps, s =>
    if Str.occurs new p.1 then
      match s.dropName p.1 with
      | (s', .error e) => (s', .error e)
      | (s', .ok ()) => dropNames new ps s'
    else dropNames new ps s

/-- time.py:721-771 `remove_time_scale_alias`. -/
def removeAlias (s : Names) (name : Str) : Names × Except Err Unit :=
  match s.aliased name with
  | _ :: _ :: _ => (s, .error .assertionError)
  | [] => (s, .ok ())
  | [ts] =>
    let s := { s with aliases := Dict.erase s.aliases ts }
    if TimeScale.all.any fun t => t.name = name then (s, .error .attributeError) else
    match delattr s.scale name with
    | .error e => (s, .error e)
    | .ok d =>
      let s := { s with scale := d }
      match delattr s.time (Str.lower name) with
      | .error e => (s, .error e)
      | .ok d =>
        let s := { s with time := d }
        match delattr s.simple (Str.lower name) with
        | .error e => (s, .error e)
        | .ok d =>
          let s := { s with simple := d }
          match Str.classStr name with
          | .error e => (s, .error e)
          | .ok new => dropNames new s.pkg s

/-- `getattr(t, x)` for an attribute of `Time` that holds the value of a scale: a
property of the class comes before an attribute of the instance.  Simplification: the
attribute that the getter reads (time.py:676-677) is taken from the instance, so
properties that hide one of the five attributes are not followed further. -/
def timeAttr (s : Names) (t : Time) (x : Str) : Except Err Nat :=
  match Dict.get? s.time x with
  | some (.prop ts) => .ok (t.get ts)
  | _ => match TimeScale.all.find? fun ts => ts.attr = x with
    | some ts => .ok (t.get ts)
    | none => .error .attributeError

/-- `setattr(t, x, v)` for the same attributes (time.py:679-680).  Simplification: other
attributes, which a `Time` accepts, are not part of the model, and are ignored. -/
def setTimeAttr (s : Names) (t : Time) (x : Str) (v : Nat) : Time :=
  match Dict.get? s.time x with
  | some (.prop ts) => t.set ts v
  | _ => match TimeScale.all.find? fun ts => ts.attr = x with
    | some ts => t.set ts v
    | none => t

/-- The properties of `SimpleTime` (time.py:389-400). -/
def simpleHas : TimeScale → Bool
  | .environment_sequence | .environment_state_update | .consideration_set_execution => true
  | _ => false

/-- `getattr(Clock.simple_time, x)`: the attributes of time.py:389-400 and aliases, whose
getter reads the attribute of the `SimpleTime`. -/
def simpleAttr (s : Names) (t : Time) (x : Str) : Except Err Nat :=
  match Dict.get? s.simple x with
  | some (.prop ts) => if simpleHas ts then .ok (t.get ts) else .error .attributeError
  | _ => match TimeScale.all.find? fun ts => ts.attr = x && simpleHas ts with
    | some ts => .ok (t.get ts)
    | none => .error .attributeError

/-- time.py:236-267 `Time(**kwargs)`, for the keyword arguments that are not those for
absolute time (which are ignored): first the arguments named like the scales, then
those named like aliases, unless that is the name of a scale's own argument; others are
ignored. -/
def newTime (s : Names) (kwargs : Dict Str Nat) : Time :=
  { Time.zero with
    at_ := fun ts =>
      match Dict.get? s.aliases ts with
      | some a =>
        if TimeScale.all.any fun t => t.attr = Str.lower a then
          (Dict.get? kwargs ts.attr).getD 0
        else match Dict.get? kwargs (Str.lower a) with
          | some v => v
          | none => (Dict.get? kwargs ts.attr).getD 0
      | none => (Dict.get? kwargs ts.attr).getD 0 }

/-- time.py:290-304 `_time_repr`, as the list of names and values that it joins. -/
def timeRepr (s : Names) (t : Time) (exclusions : List TimeScale) : List (Str × Nat) :=
  (TimeScale.all.reverse.filter fun ts => ts ∉ exclusions).map fun ts =>
    (match Dict.get? s.aliases ts with
      | none => Str.lower ts.name
      | some a => Str.lower a, t.get ts)

end Names
end GS

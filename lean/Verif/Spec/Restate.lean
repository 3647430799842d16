import Verif.Spec.Reference
/-!
# Specification vocabulary: the same scheduler, written down differently
-/

set_option linter.unusedSectionVars false

namespace GS.Spec
variable {α κ W : Type _} [DecidableEq α] [DecidableEq κ]

/-- Lists of the same length whose elements are related, one by one. -/
inductive All2 {β γ : Type _} (R : β → γ → Prop) : List β → List γ → Prop
  | nil : All2 R [] []
  | cons {x : β} {y : γ} {xs : List β} {ys : List γ} :
      R x y → All2 R xs ys → All2 R (x :: xs) (y :: ys)

/-- The same passes: in each the same sets in the same order. -/
def SamePasses : List (List (List α)) → List (List (List α)) → Prop := All2 SameSets

/-- The same runs: in each the same passes. -/
def SameRuns : List (List (List (List α))) → List (List (List (List α))) → Prop := All2 SamePasses

mutual
/-- What a condition says, whichever objects it is made of. -/
def bare : Cond α κ W → Cond α κ W
  | .leaf _ k => .leaf 0 k
  | .whileNot _ f => .whileNot 0 f
  | .all _ cs => .all 0 (bares cs)
  | .any _ cs => .any 0 (bares cs)
  | .not _ c => .not 0 (bare c)
  | .nwhen _ c k => .nwhen 0 (bare c) k
/-- What conditions say. -/
def bares : List (Cond α κ W) → List (Cond α κ W)
  | [] => []
  | c :: cs => bare c :: bares cs
end

/-- The same scheduler written down differently: the same nodes, the same senders, the same
consideration sets, and the same conditions, but the nodes, the senders, the nodes in a
consideration set and the conditions may come in another order, and the conditions may be other
objects. -/
structure Restated (s s' : Sys α κ W) : Prop where
  nodes : SameMembers s.nodes s'.nodes
  senders : ∀ n, (∀ x, Dict.get? s.graph n = some x →
      ∃ y, Dict.get? s'.graph n = some y ∧ SameMembers x y) ∧
    (Dict.get? s.graph n = none → Dict.get? s'.graph n = none)
  queue : SameSets s.queue s'.queue
  conds : ∀ n, (Dict.get? s'.conds n).map bare = (Dict.get? s.conds n).map bare
  once : Dict.WF s.conds ∧ Dict.WF s'.conds
  mode : s'.mode = s.mode
  unit : s'.defaultUnit = s.defaultUnit

/-- The same call of `run`; the conditions may be other objects. -/
structure RestatedArgs (a a' : RunArgs α κ W) : Prop where
  id : a'.id = a.id
  esu : bare a'.esu = bare a.esu
  seq : bare a'.seq = bare a.seq
  others : bares a'.others = bares a.others

/-- `d` is never considered together with `n`, unless it is `n`. -/
def Aside (q : List (List α)) (n d : α) : Prop := ∀ l ∈ q, n ∈ l → d ∈ l → d = n

/-- Choosing further nodes cannot make the condition false, if choosing nodes in `A` has no
influence on it: it is not `BeforeNCalls`, `AtNCalls` or `EveryNCalls` of other nodes. -/
def GrowsLeaf (A : α → Prop) : Leaf α κ W → Prop
  | .beforeNCalls d _ _ | .atNCalls d _ _ | .everyNCalls d _ => A d
  | _ => True

/-- Choosing further nodes cannot make the condition true, if choosing nodes in `A` has no
influence on it. -/
def ShrinksLeaf (A : α → Prop) : Leaf α κ W → Prop
  | .atNCalls d _ _ | .afterCall d _ _ | .afterNCalls d _ _ | .everyNCalls d _ => A d
  | .afterNCallsCombined ds _ _ => ∀ d ∈ ds, A d
  | .allHaveRun ds _ => (ds = [] → ∀ d, A d) ∧ ∀ d ∈ ds, A d
  | _ => True

mutual
/-- Choosing further nodes cannot make the condition false (`up`), or cannot make it true. -/
def Moves (A : α → Prop) (up : Bool) : Cond α κ W → Prop
  | .leaf _ k => (up = true → GrowsLeaf A k) ∧ (up = false → ShrinksLeaf A k)
  | .whileNot _ _ => True
  | .all _ cs => MovesAll A up cs
  | .any _ cs => MovesAll A up cs
  | .not _ c => Moves A (!up) c
  | .nwhen _ _ _ => False
/-- The same for all of the conditions. -/
def MovesAll (A : α → Prop) (up : Bool) : List (Cond α κ W) → Prop
  | [] => True
  | c :: cs => Moves A up c ∧ MovesAll A up cs
end

/-- The condition of a node, or what its `NWhen` is about. -/
def within : Cond α κ W → Cond α κ W
  | .nwhen _ c _ => c
  | c => c

/-- The order in which the nodes of a consideration set are considered does not matter: choosing
other nodes of the same set can make the condition of a node true, but not false, and a
node without condition has no senders in its own consideration set. -/
def SetsSettled (s : Sys α κ W) : Prop :=
  ∀ n ∈ s.queue.flatten,
    (∀ c, Dict.get? s.conds n = some c → Moves (Aside s.queue n) true (within c)) ∧
    (Dict.get? s.conds n = none →
      ∀ ds, Dict.get? s.graph n = some ds → ∀ d ∈ ds, Aside s.queue n d)

end GS.Spec

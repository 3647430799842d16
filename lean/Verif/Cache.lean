import Verif.GSC
/-!
# Model of the cache of graph functions (`utilities.py:25-27`, `265-279`)

`cached_graph_function(func)(graph)` looks up `(func, HashableDict(graph))` in one
`functools.lru_cache`.  The key is a shallow copy of the graph: a dict with the same
`set` objects, which may be modified later.  A Python dict compares a key with an entry
by the hash stored when the entry was made, and then by `==`, which compares the sets as
they are now.

`Fn` names the decorated functions, `H` is the type of hash values, `R` that of results.
-/

set_option linter.unusedSectionVars false

namespace GS
variable {α : Type _} [DecidableEq α]

/-- An entry of the cache: function, key (node to set object), hash at the time of the
call, result. -/
structure CacheEntry (α Fn H R : Type _) where
  fn : Fn
  key : Dict α Addr
  stored : H
  result : R

/-- The set objects of the program and the cache. -/
structure CacheState (α Fn H R : Type _) where
  heap : Heap α
  cache : List (CacheEntry α Fn H R)

/-- `==` of two dicts of sets. -/
def DictEq (g h : Graph α) : Prop :=
  (∀ n, n ∈ Dict.keys g ↔ n ∈ Dict.keys h) ∧ ∀ n x, x ∈ Dict.getD g n ↔ x ∈ Dict.getD h n

section
variable {Fn H R : Type _} (hash : Fn → Graph α → H) (f : Fn → Graph α → Except Err R)

/-- The entry answers a call of `fn` on `g`: same function, the stored hash is the hash of
the graph now (utilities.py:25-27 `HashableDict.__hash__`), and the key is equal to the
graph now. -/
def CacheEntry.Matches (h : Heap α) (fn : Fn) (g : Dict α Addr) (e : CacheEntry α Fn H R) :
    Prop :=
  e.fn = fn ∧ e.stored = hash fn (HG.value ⟨h, g⟩) ∧
    DictEq (HG.value ⟨h, e.key⟩) (HG.value ⟨h, g⟩)

/-- utilities.py:265-279: a call of `cached_graph_function(fn)(g)`.  If several entries
match, it is left open which one answers.  Exceptions are not cached. -/
inductive CachedCall (s : CacheState α Fn H R) (fn : Fn) (g : Dict α Addr) :
    CacheState α Fn H R → Except Err R → Prop where
  | hit (e : CacheEntry α Fn H R) : e ∈ s.cache → e.Matches hash s.heap fn g →
      CachedCall s fn g s (.ok e.result)
  | miss {r : R} : (∀ e ∈ s.cache, ¬ e.Matches hash s.heap fn g) →
      f fn (HG.value ⟨s.heap, g⟩) = .ok r →
      CachedCall s fn g { s with cache :=
        ⟨fn, g, hash fn (HG.value ⟨s.heap, g⟩), r⟩ :: s.cache } (.ok r)
  | raises {x : Err} : (∀ e ∈ s.cache, ¬ e.Matches hash s.heap fn g) →
      f fn (HG.value ⟨s.heap, g⟩) = .error x → CachedCall s fn g s (.error x)

/-- What can happen to the cache: calls, entries being dropped (which ones `lru_cache`
drops is left open), and modifications of set objects, in place or new ones. -/
inductive CacheReach : CacheState α Fn H R → Prop where
  | init (h : Heap α) : CacheReach { heap := h, cache := [] }
  | call {s s' : CacheState α Fn H R} {fn : Fn} {g : Dict α Addr} {r : Except Err R} :
      CacheReach s → CachedCall hash f s fn g s' r → CacheReach s'
  | evict {s : CacheState α Fn H R} {c : List (CacheEntry α Fn H R)} :
      CacheReach s → (∀ e ∈ c, e ∈ s.cache) → CacheReach { s with cache := c }
  | mutate {s : CacheState α Fn H R} (h : Heap α) : CacheReach s → CacheReach { s with heap := h }

end

/-- The graph functions of the package that are cached and modelled. -/
inductive GraphFn where
  | ancestors | descendants | receivers | queue
deriving DecidableEq, Repr

/-- Their results. -/
inductive GraphRes (α : Type _) where
  | map (d : Dict α (List α))
  | layers (q : List (List α))

/-- utilities.py:282-324 and scheduler.py:361-365: the functions that are cached. -/
def graphFn : GraphFn → Graph α → Except Err (GraphRes α)
  | .ancestors, g => .ok (.map (getAncestors g))
  | .descendants, g => .ok (.map (getDescendants g))
  | .receivers, g => .ok (.map (getReceivers g))
  | .queue, g => match toposort g with
    | .ok q => .ok (.layers q)
    | .error e => .error e

end GS

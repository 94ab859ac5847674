import Verif.Base.Outcome

/-!
# The fixed-size caches

Model of `deps/caches/include/cache.hpp`, `lru_cache_policy.hpp` and `fifo_cache_policy.hpp`.  The mutex is not
modelled: each call is one step.  `Get` returns a reference that outlives the lock; the model returns the value.
-/
namespace Verif.Cache

/-- The policy a cache is built with (deps/caches/Cache.h:10-14). -/
inductive Policy | lru | fifo
deriving DecidableEq, Repr

variable {K V : Type} [DecidableEq K]

/-- `fixed_sized_cache` and its policy object (cache.hpp:142-147, lru_cache_policy.hpp:44-46, fifo_cache_policy.hpp:38-39):
`queue` is `lru_queue` or `fifo_queue`, its front first; `finder` are the keys of `key_finder`, whose iterators point at the
element of the queue with that key; `items` is the unordered map. -/
structure Cache (K V : Type) where
  policy : Policy
  max : Nat
  queue : List K
  finder : List K
  items : List (K × V)

/-- The constructor (cache.hpp:28-37); `size_t` has 64 bits. -/
def create (policy : Policy) (maxSize : Nat) : Cache K V :=
  ⟨policy, if maxSize = 0 then 2 ^ 64 - 1 else maxSize, [], [], []⟩

/-- `FindElem` (cache.hpp:139-142). -/
def lookup (items : List (K × V)) (k : K) : Option V := (items.find? (fun p => p.1 = k)).map (·.2)

/-- `Policy::Touch` (lru_cache_policy.hpp:24-28, fifo_cache_policy.hpp:19-22).  `key_finder[key]` of an unknown key is an
iterator to nothing. -/
def touch (c : Cache K V) (k : K) : Res (Cache K V) :=
  match c.policy with
  | .fifo => .ok c
  | .lru => if k ∈ c.finder then .ok { c with queue := k :: c.queue.erase k } else .ub

/-- `Policy::Insert` (lru_cache_policy.hpp:18-22, fifo_cache_policy.hpp:14-17). -/
def policyInsert (c : Cache K V) (k : K) : Cache K V :=
  match c.policy with
  | .fifo => { c with queue := k :: c.queue }
  | .lru => { c with queue := k :: c.queue, finder := if k ∈ c.finder then c.finder else k :: c.finder }

/-- `Policy::Erase` (lru_cache_policy.hpp:30-35, fifo_cache_policy.hpp:24-27): the last of the queue, whatever the key. -/
def policyErase (c : Cache K V) : Res (Cache K V) :=
  match c.policy, c.queue.getLast? with
  | _, none => .ub
  | .fifo, some _ => .ok { c with queue := c.queue.dropLast }
  | .lru, some l => .ok { c with queue := c.queue.dropLast, finder := c.finder.erase l }

/-- `Erase` (cache.hpp:124-131): the map element of the key is erased, undefined if there is none. -/
def eraseKey (c : Cache K V) (k : K) : Res (Cache K V) := do
  let c ← policyErase c
  match lookup c.items k with
  | none => .ub
  | some _ => .ok { c with items := c.items.filter (fun p => p.1 ≠ k) }

/-- `Insert` (cache.hpp:118-122); `emplace` leaves an existing key alone. -/
def store (c : Cache K V) (k : K) (v : V) : Cache K V :=
  let c := policyInsert c k
  match lookup c.items k with
  | some _ => c
  | none => { c with items := (k, v) :: c.items }

/-- Giving a key of the map another value. -/
def setValue (items : List (K × V)) (k : K) (v : V) : List (K × V) :=
  items.map (fun p => if p.1 = k then (k, v) else p)

/-- `Update` (cache.hpp:133-137). -/
def update (c : Cache K V) (k : K) (v : V) : Res (Cache K V) := do
  let c ← touch c k
  .ok { c with items := setValue c.items k v }

/-- `Put` (cache.hpp:44-66). -/
def put (c : Cache K V) (k : K) (v : V) : Res (Cache K V) :=
  match lookup c.items k with
  | some _ => update c k v
  | none => do
    let c ← if c.items.length + 1 > c.max then
        match c.queue.getLast? with
        | none => .ub
        | some candidate => eraseKey c candidate
      else .ok c
    .ok (store c k v)

/-- `Get` (cache.hpp:68-80). -/
def fetch (c : Cache K V) (k : K) : Res (Cache K V × V) :=
  match lookup c.items k with
  | none => .throw
  | some v => do
    let c ← touch c k
    .ok (c, v)

/-- `Cached` (cache.hpp:82-86). -/
def cached (c : Cache K V) (k : K) : Bool := (lookup c.items k).isSome

/-- `Size` (cache.hpp:88-93). -/
def size (c : Cache K V) : Nat := c.items.length

/-- The loop of `Clear` (cache.hpp:99-103): one `Policy::Erase` for each element. -/
def clearLoop : List (K × V) → Cache K V → Res (Cache K V)
  | [], c => .ok c
  | _ :: l, c => do
    let c ← policyErase c
    clearLoop l c

/-- `Clear` (cache.hpp:95-105). -/
def clear (c : Cache K V) : Res (Cache K V) := do
  let c ← clearLoop c.items c
  .ok { c with items := [] }

/-- The calls that change a cache. -/
inductive Op (K V : Type)
  | put (k : K) (v : V)
  | get (k : K)
  | clear

/-- One call; a `Get` that throws leaves the cache as it is. -/
def Op.step (c : Cache K V) : Op K V → Res (Cache K V)
  | .put k v => Cache.put c k v
  | .get k =>
    match Cache.fetch c k with
    | .ok (c', _) => .ok c'
    | .throw => .ok c
    | .ub => .ub
  | .clear => Cache.clear c

/-- A history of calls. -/
def runOps (c : Cache K V) : List (Op K V) → Res (Cache K V)
  | [] => .ok c
  | o :: l => do
    let c ← Op.step c o
    runOps c l

end Verif.Cache

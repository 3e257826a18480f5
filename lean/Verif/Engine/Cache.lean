/-
Model of the bounded cache of the resolver: crate lru, `LruCache` as crates/weaver_resolver/src/lib.rs uses it
(`new`, `get`, `peek`, `put`).
-/
namespace Verif.Engine

/-- crates/weaver_resolver/src/lib.rs:136-142 `cache : LruCache<_, _>`: the entries, the most recently used one first.
(The crate keeps a hash map and a doubly linked list.) -/
abbrev Lru (K V : Type) := List (K × V)

namespace Lru
variable {K V : Type} [DecidableEq K]

/-- `LruCache::peek` (lib.rs:317, loader.rs:229): the value of a key, without counting as a use. -/
def peek (k : K) : Lru K V → Option V
  | [] => none
  | p :: c => if p.1 = k then some p.2 else peek k c

/-- The entries of the other keys. -/
def without (k : K) (c : Lru K V) : Lru K V := c.filter fun p => decide (p.1 ≠ k)

/-- `LruCache::get` (lib.rs:202, 515): the value of a key; a key that is found becomes the most recently used one. -/
def get (k : K) (c : Lru K V) : Option V × Lru K V :=
  match peek k c with
  | none => (none, c)
  | some v => (some v, (k, v) :: without k c)

/-- `LruCache::put` (lib.rs:473, 480, 490, 497, 553, 564): the key becomes the most recently used one with this value;
beyond `cap` entries the least recently used one is dropped. -/
def put (cap : Nat) (k : K) (v : V) (c : Lru K V) : Lru K V := ((k, v) :: without k c).take cap

end Lru
end Verif.Engine

import Verif.Model.Bytes

/-!
Model of `static_pool.hpp`.

Addresses and sizes are numbers below `2 ^ 64`; the arithmetic wraps around as it does in the code.
-/

namespace Url

/-- the number of values of `std::size_t` and `std::uintptr_t` -/
@[irreducible] def wordSize : Nat := 2 ^ 64

/-- `a + b`, `a * b` and `a - b` of two words -/
def wadd (a b : Nat) : Nat := (a + b) % wordSize
def wmul (a b : Nat) : Nat := (a * b) % wordSize
def wsub (a b : Nat) : Nat := (a + (wordSize - b)) % wordSize

/-- `static_pool.hpp:21-23` -/
structure Pool where
  base : Nat
  capacity : Nat
  top : Nat
  deriving DecidableEq, Repr

/-- a block that was handed out -/
structure Block where
  addr : Nat
  size : Nat
  deriving DecidableEq, Repr

namespace Pool

/-- `static_pool.hpp:137-144`, the constructor -/
def make (buffer size : Nat) : Pool := ⟨buffer, size, buffer⟩

/-- `static_pool.hpp:34-35` `u` -/
def up (top align : Nat) : Nat := wmul align (wsub (wadd top align) 1 / align)

/-- `static_pool.hpp:28-45` `allocate`; `none` is `std::bad_alloc` -/
def allocate (p : Pool) (bytes align : Nat) : Option (Nat × Pool) :=
  let u := up p.top align
  if u < p.top ∨ wsub p.capacity (wsub u p.base) < bytes then none
  else some (u, { p with top := wadd u bytes })

/-- `static_pool.hpp:103-110` `allocator_type<T>::allocate(n)`, with the size and the alignment of `T` -/
def allocateT (p : Pool) (n size align : Nat) : Option (Nat × Pool) := p.allocate (wmul n size) align

/-- A request for `bytes` bytes at a multiple of `align`. -/
structure Request where
  bytes : Nat
  align : Nat
  deriving DecidableEq, Repr

/-- One request; if it throws the pool is left as it is. -/
def step (p : Pool) (r : Request) : Option Block × Pool :=
  ((p.allocate r.bytes r.align).map fun x => ⟨x.1, r.bytes⟩, ((p.allocate r.bytes r.align).map (·.2)).getD p)

/-- A sequence of requests. `deallocate` (`static_pool.hpp:47-56`) does nothing. The result has one entry for each
request. -/
def run (p : Pool) : List Request → List (Option Block)
  | [] => []
  | r :: rs => (p.step r).1 :: run (p.step r).2 rs

end Pool

end Url

import Verif.Model.View

/-!
Model of `detail/storage.hpp` (`alloc_storage`) and of the state a `url_base` works on.

A modifying call runs in an environment (build mode, allocator, the two size limits) from a state to
an outcome: it returns, throws, or faults. Pointers into the buffer are offsets from its start.
-/

namespace Url

/-- What a call cannot influence. -/
structure Env where
  /-- assertions are compiled in -/
  dbg : Bool
  /-- whether the `k`-th allocation succeeds, given its size -/
  alloc : Nat → Nat → Bool
  /-- `allocator_traits::max_size`; a larger request fails -/
  maxSize : Nat
  /-- the largest `std::size_t` -/
  sizeMax : Nat
  max_le : maxSize ≤ sizeMax

/-- What an allocator is asked to do, and does: `allocate(n)` returning the block `id`, `deallocate` of the block `id`
with the size `n`. -/
inductive Event where
  | alloc (id n : Nat)
  | free (id n : Nat)
  deriving DecidableEq, Repr

/-- `url_base` (`s_`, `pt_`) together with the `alloc_storage` (`p_`, `size_`, `cap_`) behind `a_`.
`s_` is assigned only from results of `a_.resize` and `a_.reserve`, and nothing else calls these, so
`s_ = p_` always; both are `buf`. `buf = none` is a null pointer, otherwise the cells of the
allocation, and `addr` says which one it is. `tick` counts the allocations so far (it only numbers them for
`Env.alloc`). `log` is what the allocator was asked to do. -/
structure St where
  buf : Option (List Cell) := none
  size : Nat := 0
  cap : Nat := 0
  tick : Nat := 0
  pt : Parts := {}
  addr : Nat := 0
  log : List Event := []

/-- The outcome of a modifying call; an exception carries the state it leaves behind. -/
inductive Out (α : Type) where
  | ret (a : α) (st : St)
  | throw (e : Exc) (st : St)
  | fault (f : Flt)

def M (α : Type) : Type := Env → St → Out α

namespace M

instance : Monad M where
  pure a := fun _ st => .ret a st
  bind m f := fun env st =>
    match m env st with
    | .ret a st => f a env st
    | .throw e st => .throw e st
    | .fault x => .fault x

/-- throw an exception -/
def raise {α : Type} (e : Exc) : M α := fun _ st => .throw e st

/-- the offset table `pt_` -/
def pt : M Parts := fun _ st => .ret st.pt st

/-- assign to members of `pt_` -/
def setPt (f : Parts → Parts) : M Unit := fun _ st => .ret () { st with pt := f st.pt }

/-- `(std::size_t)-1` -/
def sizeMax : M Nat := fun env st => .ret env.sizeMax st

/-- `s_ == nullptr` -/
def isNull : M Bool := fun _ st => .ret st.buf.isNone st

end M

/-- what the `const` members see of a `url_base` -/
def St.obj (st : St) (dbg : Bool) : Obj := { dbg := dbg, pt := st.pt, mem := st.buf.getD [] }

namespace M

/-- a computation that only reads -/
def ask {α : Type} (f : Obj → R α) : M α := fun env st =>
  match f (st.obj env.dbg) with
  | .ok a => .ret a st
  | .error x => .fault x

/-- `BOOST_ASSERT` -/
def assert (c : Obj → R Bool) : M Unit := ask fun o => o.assert (c o)

/-- write the bytes `s` at `s_ + i` -/
def put (i : Nat) (s : Str) : M Unit := fun _ st =>
  if s.isEmpty then .ret () st
  else
    match st.buf with
    | none => .fault .ub
    | some b =>
      if i + s.length ≤ b.length then
        .ret () { st with buf := some (b.take i ++ s.map some ++ b.drop (i + s.length)) }
      else .fault .ub

/-- `std::memmove(s_ + dst, s_ + src, n)` -/
def move (dst src n : Nat) : M Unit := fun _ st =>
  if n = 0 then .ret () st
  else
    match st.buf with
    | none => .fault .ub
    | some b =>
      if src + n ≤ b.length ∧ dst + n ≤ b.length then
        .ret () { st with buf := some (b.take dst ++ (b.drop src).take n ++ b.drop (dst + n)) }
      else .fault .ub

end M

namespace Storage

/-- The capacity chosen by `reserve(n)` when `n > cap_`, `detail/storage.hpp:72-79`. -/
def newCap (maxSize cap n : Nat) : Nat :=
  if cap < maxSize - cap then (if 2 * cap < n then n else 2 * cap) else maxSize

/-- `a_.allocate(n)`: the new block is named by the number of the call. -/
def allocate (n : Nat) : M Nat := fun env st =>
  if n ≤ env.maxSize ∧ env.alloc st.tick n then .ret st.tick { st with tick := st.tick + 1, log := st.log ++ [.alloc st.tick n] }
  else .throw .bad_alloc { st with tick := st.tick + 1 }

/-- `detail/storage.hpp:65-92` `reserve`. The cells of a new allocation are indeterminate. -/
def reserve (n : Nat) : M Unit := fun env st =>
  if n ≤ st.cap then .ret () st
  else
    let cap := newCap env.maxSize st.cap n
    match allocate (cap + 1) env st with
    | .throw e st => .throw e st
    | .fault f => .fault f
    | .ret id st =>
      match st.buf with
      | none => .ret () { st with buf := some (List.replicate (cap + 1) none), cap := cap, addr := id }
      | some b =>
        if st.size + 1 ≤ b.length ∧ st.size + 1 ≤ cap + 1 then
          let p := b.take (st.size + 1) ++ List.replicate (cap + 1 - (st.size + 1)) none
          .ret () { st with buf := some (p.set st.size (some 0)), cap := cap, addr := id,
                            log := st.log ++ [.free st.addr (st.cap + 1)] }
        else .fault .ub

/-- `detail/storage.hpp:100-112` `resize` -/
def resize (n : Nat) : M Unit := fun env st =>
  match reserve n env st with
  | .throw e st => .throw e st
  | .fault f => .fault f
  | .ret () st =>
    match st.buf with
    | none => .ret () st
    | some b =>
      if n < b.length then .ret () { st with size := n, buf := some (b.set n (some 0)) }
      else .fault .ub

/-- `detail/storage.hpp:52-57` `~alloc_storage`: what the allocator has done in the end -/
def destroy (st : St) : List Event :=
  match st.buf with
  | none => st.log
  | some _ => st.log ++ [.free st.addr (st.cap + 1)]

end Storage

end Url

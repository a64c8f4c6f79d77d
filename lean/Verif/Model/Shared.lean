import Verif.Model.Pool
import Verif.Model.Op
import Verif.Model.ItOp

/-!
Urls whose buffers come from one `static_pool`: `basic_url<basic_static_pool::allocator_type<char>>`, each constructed
with `pool.allocator()` (`static_pool.hpp:146-150`).

A url asks its pool through `allocator_type<char>::allocate` (`static_pool.hpp:103-110`), with the size and the alignment
of a `char`. `deallocate` (`static_pool.hpp:112-120` and `47-56`) does nothing.

Simplified: a call is run with an allocator that answers as the pool does at its start. This is what happens as long as
a call makes one request at most, which is proved (`Verif.Props.Shared`, `C60_once`). A request for more than
`max_size` characters is refused here, while it would wrap around in the code (see C52).
-/

set_option autoImplicit false

namespace Url
open Spec (Op)

theorem wordSize_pos : 0 < wordSize := by rw [wordSize]; decide

/-- A call of a modifying member function, or of one that edits a segment. -/
inductive Act where
  | call (op : Op)
  | edit (e : ItOp)

/-- Run it; the iterator an edit returns is dropped. -/
def Act.run : Act → M Unit
  | .call op => Url.run op
  | .edit e => runIt e >>= fun _ => pure ()

/-- The environment of a url with the allocator of a pool. `max_size` is that of `std::allocator_traits` for an allocator
that does not say. -/
def poolEnv (dbg : Bool) (p : Pool) : Env where
  dbg := dbg
  alloc := fun _ n => (p.allocate n 1).isSome
  maxSize := wordSize - 1
  sizeMax := wordSize - 1
  max_le := Nat.le_refl _

/-- A url and the address of its buffer, if it has one. -/
structure Tenant where
  st : St
  place : Nat

/-- A pool, the urls that use it, and the urls that used it and were destroyed. -/
structure Sharing where
  pool : Pool
  urls : List Tenant
  gone : List Tenant

/-- The block that the pool hands out for a request, or the one there was, and the pool. -/
def Pool.grant (place : Nat) (p : Pool) (n : Nat) : Nat × Pool := (p.allocate n 1).getD (place, p)

/-- What the pool does about what it was asked: the address of the block that was handed out last, and the pool. -/
def serve (place : Nat) (p : Pool) : List Event → Nat × Pool
  | [] => (place, p)
  | .alloc _ n :: E => serve (p.grant place n).1 (p.grant place n).2 E
  | .free _ _ :: E => serve place p E

/-- the new requests of a call -/
def St.since (st st' : St) : List Event := st'.log.drop st.log.length

/-- The url `t` at the position `i` changed to `st'`. -/
def Sharing.set (w : Sharing) (i : Nat) (t : Tenant) (st' : St) : Sharing :=
  { w with pool := (serve t.place w.pool (t.st.since st')).2,
           urls := w.urls.set i ⟨st', (serve t.place w.pool (t.st.since st')).1⟩ }

/-- What can happen next: a url is constructed with the allocator of the pool (`basic_url.hpp:48-55`), a url is modified,
a url is destroyed (`detail/storage.hpp:53-58`). -/
inductive Step where
  | make
  | act (i : Nat) (a : Act)
  | destroy (i : Nat)

/-- There is no next state if there is no such url, or if the call is undefined or an assertion fails. -/
def Sharing.step (dbg : Bool) (w : Sharing) : Step → Option Sharing
  | .make => some { w with urls := w.urls ++ [⟨Base.empty, 0⟩] }
  | .act i a =>
    match w.urls[i]? with
    | none => none
    | some t =>
      match a.run (poolEnv dbg w.pool) t.st with
      | .ret () st' => some (w.set i t st')
      | .throw _ st' => some (w.set i t st')
      | .fault _ => none
  | .destroy i =>
    match w.urls[i]? with
    | none => none
    | some t => some { w with urls := w.urls.eraseIdx i, gone := t :: w.gone }

/-- A new `static_pool` and nobody who uses it; `base` is the address of its buffer. -/
def Sharing.start (base size : Nat) : Sharing := ⟨Pool.make base size, [], []⟩

/-- The implicit copy constructor of a pool: the members are copied. The buffer of a copied `static_pool` is not the
`buf_` of the copy (`static_pool.hpp:153-164`). -/
def Pool.copy (p : Pool) : Pool := p

/-- A call on a url with a default constructed allocator (`basic_url.hpp:29-36`, `static_pool.hpp:62` and `84-88`): the
first request uses the null pointer `pool_`. -/
def Act.runNull (dbg : Bool) (a : Act) (st : St) : Out Unit :=
  match a.run { poolEnv dbg (Pool.make 0 0) with alloc := fun _ _ => false } st with
  | .throw .bad_alloc _ => .fault .ub
  | o => o

end Url

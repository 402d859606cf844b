import Verif.Model.Metadata

/-! # Small helpers: aligned buffers, the buffer pool and the list printer of the dump tool

/repo/src/utils/aligned_buffer.rs, /repo/src/utils/aligned_buffer_pool.rs, /repo/src/bin/dump-metadata.rs. -/

namespace Verif.Tools
open Verif

/-! ## Aligned buffers -/

/-- `AlignedBuf` (aligned_buffer.rs:8-15). `ptr` is the address of the first byte of `vec`. -/
structure ABuf where
  ptr : Nat
  vec : Bytes
  offset : Nat
  len : Nat
deriving DecidableEq

/-- `assert!(align != 0 && align.is_power_of_two())` (aligned_buffer.rs:25-28). -/
def PowerOfTwo (n : Nat) : Prop := ∃ k, n = 2 ^ k

instance (n : Nat) : Decidable (PowerOfTwo n) :=
  decidable_of_iff (n = 2 ^ n.log2)
    ⟨fun h => ⟨_, h⟩, fun ⟨k, h⟩ => by subst h; rw [Nat.log2_two_pow]⟩

/-- `new_with_alignment` (aligned_buffer.rs:24-40); the address chosen by the allocator is an argument, a failed
assertion is `none`. Sums do not overflow `usize` (an allocation that large fails). -/
def ABuf.new (ptr len align : Nat) : Option ABuf :=
  if PowerOfTwo align then
    some { ptr := ptr, vec := zeros (len + align), offset := (align - ptr % align) % align, len := len }
  else none

/-- `as_slice` (aligned_buffer.rs:50-52): slicing outside the vector panics. -/
def ABuf.slice? (b : ABuf) : Option Bytes :=
  if b.offset + b.len ≤ b.vec.length then some (slice b.vec b.offset b.len) else none

/-- `as_ptr` (aligned_buffer.rs:42-44). -/
def ABuf.start (b : ABuf) : Nat := b.ptr + b.offset

/-! ## Buffer pool -/

/-- A `SharedBuffer`: the allocation its `Arc` points to and the `id` stored in it (aligned_buffer_pool.rs:17-23). -/
structure Buf where
  addr : Nat
  id : Nat
deriving DecidableEq, Repr

/-- `AlignedBufferPool` (aligned_buffer_pool.rs:9-13). -/
structure Pool where
  buffers : List Buf
  available : List Nat
  inUse : List Bool
deriving DecidableEq, Repr

/-- `new` (aligned_buffer_pool.rs:16-30): `addrs` are the addresses of the `count` allocations. -/
def Pool.new (addrs : List Nat) : Pool :=
  { buffers := addrs.mapIdx fun i a => ⟨a, i⟩, available := List.range addrs.length,
    inUse := List.replicate addrs.length false }

/-- What a call (aligned_buffer_pool.rs:32-60) did: a buffer, no buffer, accepted, or an assertion failed / an index
was out of range. -/
inductive Got where
  | buf (b : Buf)
  | empty
  | panic
deriving DecidableEq, Repr

/-- `get_buffer` (aligned_buffer_pool.rs:32-37); indexing out of range panics. -/
def Pool.get (p : Pool) : Pool × Got :=
  match p.available with
  | [] => (p, .empty)
  | i :: rest =>
    if i < p.inUse.length then
      match p.buffers[i]? with
      | some b => ({ p with available := rest, inUse := p.inUse.set i true }, .buf b)
      | none => (p, .panic)
    else (p, .panic)

/-- `return_buffer` (aligned_buffer_pool.rs:39-60): `none` is a failed assertion. -/
def Pool.ret (p : Pool) (b : Buf) : Option Pool :=
  if b.id < p.buffers.length then
    if p.inUse[b.id]? = some true then
      if (p.buffers[b.id]?).map Buf.addr = some b.addr then
        some { p with inUse := p.inUse.set b.id false, available := p.available ++ [b.id] }
      else none
    else none
  else none

/-- `has_available` (aligned_buffer_pool.rs:62-64). -/
def Pool.hasAvailable (p : Pool) : Bool := !p.available.isEmpty

/-- The calls (aligned_buffer_pool.rs:32-60) a user of the pool sees succeed. -/
inductive PEv where
  | got (b : Buf)
  | none
  | returned (b : Buf)
deriving DecidableEq, Repr

/-- One call (aligned_buffer_pool.rs:32-60) that does not panic. -/
inductive Pool.Step : Pool → PEv → Pool → Prop
  | get {p p' : Pool} {b : Buf} : p.get = (p', .buf b) → Step p (.got b) p'
  | empty {p p' : Pool} : p.get = (p', .empty) → Step p .none p'
  | ret {p p' : Pool} {b : Buf} : p.ret b = some p' → Step p (.returned b) p'

/-- A history of calls on a new pool (aligned_buffer_pool.rs:16-60). -/
inductive Pool.Run (addrs : List Nat) : List PEv → Pool → Prop
  | new : Run addrs [] (Pool.new addrs)
  | step {es : List PEv} {p p' : Pool} {e : PEv} : Run addrs es p → Pool.Step p e p' → Run addrs (es ++ [e]) p'

/-! ## Dump tool -/

/-- `to_string` of a `usize` (standard library). -/
def decimal (n : Nat) : List Char := Nat.toDigits 10 n

/-- `push_range` (dump-metadata.rs:47-56): the items appended. `end - start` does not underflow in `formatList`. -/
def pushRange (first last : Nat) : List (List Char) :=
  match last - first with
  | 0 => [decimal first]
  | 1 => [decimal first, decimal last]
  | _ => [decimal first ++ '-' :: decimal last]

/-- The loop of `format_list` (dump-metadata.rs:26-42) with its variables `start` and `prev`. -/
def formatLoop (start prev : Nat) : List Nat → List (List Char)
  | [] => pushRange start prev
  | v :: vs => if v = prev + 1 then formatLoop start v vs else pushRange start prev ++ formatLoop v v vs

/-- `join(", ")` (dump-metadata.rs:44). -/
def joinItems : List (List Char) → List Char
  | [] => []
  | [x] => x
  | x :: y :: r => x ++ ',' :: ' ' :: joinItems (y :: r)

/-- `format_list` (dump-metadata.rs:21-45). -/
def formatList : List Nat → List Char
  | [] => []
  | v :: vs => joinItems (formatLoop v v vs)

/-- The indices selected by `enumerate().filter_map(…)` in `run` (dump-metadata.rs:137-154). -/
def indicesWith (flag : UInt8) (headers : List UInt8) : List Nat :=
  (List.range headers.length).filter fun i => headers.getD i 0 &&& flag ≠ 0

/-- The lists of fetched, written and has-source stripes `run` prints (dump-metadata.rs:137-154, 164-166). -/
def dumpLists (headers : List UInt8) : List Char × List Char × List Char :=
  (formatList (indicesWith Metadata.FETCHED headers), formatList (indicesWith Metadata.WRITTEN headers),
    formatList (indicesWith Metadata.HAS_SOURCE headers))

end Verif.Tools

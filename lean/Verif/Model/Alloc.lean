import Verif.Model.Bytes
/-!
# The counting allocator and the memory gauge (`src/allocator.rs`, lines 156–194)

A call of the allocator is not atomic: the call of the system allocator and the update of the counter are separate steps, and the
steps of different threads interleave arbitrarily. The counter is sequentially consistent (`SeqCst`). `realloc` and `alloc_zeroed`
are the default ones of `GlobalAlloc`, which are made of `alloc` and `dealloc`.
-/

namespace Attimo

/-- a block of memory: an address and the size of the layout it was allocated with -/
structure MemBlock where
  addr : Nat
  size : Nat
  deriving DecidableEq, Repr

/-- what a thread still has to do in the call it is executing -/
inductive Todo where
  /-- `ALLOCATED.fetch_add(layout.size(), SeqCst)` and returning the block (`src/allocator.rs:163-166`) -/
  | add (b : MemBlock)
  /-- `ALLOCATED.fetch_sub(layout.size(), SeqCst)` (`src/allocator.rs:171`) -/
  | sub (b : MemBlock)
  deriving DecidableEq, Repr

/-- the state of the process: the blocks given out by the system allocator, those that belong to the program (returned by `alloc`
and not yet passed to `dealloc`), the calls in progress by thread, and `ALLOCATED` -/
structure Heap where
  live : List MemBlock
  owned : List MemBlock
  todo : List (Nat × Todo)
  counter : Nat
  deriving DecidableEq, Repr

/-- the start of the process (`src/allocator.rs:158`) -/
def Heap.start : Heap := ⟨[], [], [], 0⟩

/-- a step of thread `t` -/
inductive HeapEv where
  /-- `System.alloc` returns a block -/
  | sysAlloc (t : Nat) (b : MemBlock)
  /-- `System.alloc` returns null: `alloc` returns null without touching the counter -/
  | sysFail (t : Nat)
  /-- the rest of the call in progress -/
  | finish (t : Nat)
  /-- `System.dealloc` -/
  | sysDealloc (t : Nat) (b : MemBlock)
  deriving DecidableEq, Repr

/-- is thread `t` outside the allocator? -/
def Heap.idle (h : Heap) (t : Nat) : Bool := h.todo.all fun p => p.1 != t

/-- `fetch_add` -/
def fetchAdd (x n : Nat) : Nat := (x + n) % 2 ^ 64

/-- `fetch_sub` -/
def fetchSub (x n : Nat) : Nat := (x + 2 ^ 64 - n % 2 ^ 64) % 2 ^ 64

/-- `CountingAllocator` (`src/allocator.rs:160-173`), step by step; `none` if the step is not possible. The system allocator returns
an address that is not in use. The program only frees blocks it owns, with the layout they were allocated with (the contract of
`GlobalAlloc`). `fetch_add` and `fetch_sub` wrap around. -/
def Heap.step (h : Heap) : HeapEv → Option Heap
  | .sysAlloc t b =>
    if h.idle t ∧ ∀ c ∈ h.live, c.addr ≠ b.addr then some { h with live := b :: h.live, todo := (t, .add b) :: h.todo } else none
  | .sysFail t => if h.idle t then some h else none
  | .finish t =>
    match h.todo.find? fun p => p.1 == t with
    | some (t', .add b) =>
      some { h with todo := h.todo.erase (t', .add b), counter := fetchAdd h.counter b.size, owned := b :: h.owned }
    | some (t', .sub b) => some { h with todo := h.todo.erase (t', .sub b), counter := fetchSub h.counter b.size }
    | none => none
  | .sysDealloc t b =>
    if h.idle t ∧ b ∈ h.owned then
      some { h with live := h.live.erase b, owned := h.owned.erase b, todo := (t, .sub b) :: h.todo }
    else none

/-- a history of steps -/
def Heap.run (h : Heap) : List HeapEv → Option Heap
  | [] => some h
  | e :: es => (h.step e).bind fun h => h.run es

/-- `allocated` (`src/allocator.rs:175-177`) -/
def Heap.allocated (h : Heap) : Nat := h.counter

/-- `MemoryGauge` (`src/allocator.rs:179-188`): the counter at its creation -/
abbrev Gauge := Nat

/-- `MemoryGauge::allocated` (`src/allocator.rs:183-187`) -/
def Gauge.new (h : Heap) : Gauge := h.allocated

/-- `MemoryGauge::measure` (`src/allocator.rs:190-193`) -/
def Gauge.measure (debug : Bool) (g : Gauge) (h : Heap) : R Nat := subBytes debug h.allocated g

end Attimo

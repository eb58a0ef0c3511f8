import Verif.Model.Alloc
import Mathlib.Data.List.Basic
import Mathlib.Algebra.BigOperators.Group.List.Basic
import Mathlib.Data.List.Perm.Basic
import Mathlib.Data.List.Perm.Subperm
import Mathlib.Tactic.Linarith
import Mathlib.Tactic.Ring
/-!
# C68, C69: the allocation counter and the gauge
-/

namespace Attimo

/-- total size of a list of blocks -/
def totalSize (l : List MemBlock) : Nat := (l.map MemBlock.size).sum

/-- the blocks whose addition is pending -/
def addingOf (todo : List (Nat × Todo)) : List MemBlock := todo.filterMap fun p => match p.2 with
  | .add b => some b
  | .sub _ => none

/-- the blocks whose removal is pending -/
def removingOf (todo : List (Nat × Todo)) : List MemBlock := todo.filterMap fun p => match p.2 with
  | .add _ => none
  | .sub b => some b

/-- the blocks whose addition is pending -/
def Heap.adding (h : Heap) : List MemBlock := addingOf h.todo

/-- the blocks whose removal is pending -/
def Heap.removing (h : Heap) : List MemBlock := removingOf h.todo

/-- the blocks whose addition to the counter has run and whose removal has not: those of the program, and those in a call of
`dealloc` in progress -/
def Heap.accounted (h : Heap) : List MemBlock := h.owned ++ h.removing

theorem totalSize_perm {a b : List MemBlock} (h : a.Perm b) : totalSize a = totalSize b :=
  List.Perm.sum_eq (h.map MemBlock.size)

theorem totalSize_cons (b : MemBlock) (l : List MemBlock) : totalSize (b :: l) = b.size + totalSize l := by simp [totalSize]

theorem totalSize_append (a b : List MemBlock) : totalSize (a ++ b) = totalSize a + totalSize b := by simp [totalSize]

theorem totalSize_erase {b : MemBlock} {l : List MemBlock} (h : b ∈ l) : totalSize l = b.size + totalSize (l.erase b) := by
  rw [totalSize_perm (List.perm_cons_erase h), totalSize_cons]

theorem fetchAdd_mod (x n : Nat) : fetchAdd (x % 2 ^ 64) n = (n + x) % 2 ^ 64 := by unfold fetchAdd; omega

theorem fetchSub_mod (x n : Nat) : fetchSub ((n + x) % 2 ^ 64) n = x % 2 ^ 64 := by unfold fetchSub; omega

/-- the invariant -/
structure Heap.Inv (h : Heap) : Prop where
  live : h.live.Perm (h.owned ++ h.adding)
  counter : h.counter = totalSize h.accounted % 2 ^ 64

theorem Heap.Inv.start : Heap.start.Inv := ⟨by simp [Heap.start, Heap.adding, addingOf], by simp [Heap.start, Heap.accounted, Heap.removing, removingOf, totalSize]⟩

theorem find_mem {h : Heap} {t : Nat} {p : Nat × Todo} (hf : (h.todo.find? fun p => p.1 == t) = some p) : p ∈ h.todo :=
  List.mem_of_find?_eq_some hf

theorem Heap.Inv.step {h h' : Heap} {e : HeapEv} (hi : h.Inv) (hs : h.step e = some h') : h'.Inv := by
  cases e with
  | sysAlloc t b =>
    simp only [Heap.step] at hs
    split at hs
    · cases hs
      refine ⟨?_, ?_⟩
      · have e : Heap.adding { h with live := b :: h.live, todo := (t, .add b) :: h.todo } = b :: h.adding := by simp [Heap.adding, addingOf]
        rw [e]
        exact ((hi.live.cons b).trans List.perm_middle.symm)
      · have e : Heap.accounted { h with live := b :: h.live, todo := (t, .add b) :: h.todo } = h.accounted := by
          simp [Heap.accounted, Heap.removing, removingOf]
        rw [e]; exact hi.counter
    · cases hs
  | sysFail t =>
    simp only [Heap.step] at hs
    split at hs
    · cases hs; exact hi
    · cases hs
  | finish t =>
    simp only [Heap.step] at hs
    split at hs
    · next t' b hf =>
      cases hs
      have hm := List.perm_cons_erase (find_mem hf)
      have ea : h.adding.Perm (b :: addingOf (h.todo.erase (t', .add b))) := by
        have := hm.filterMap fun p => match p.2 with
          | .add b => some b
          | .sub _ => none
        simpa [Heap.adding, addingOf] using this
      have er : h.removing.Perm (removingOf (h.todo.erase (t', .add b))) := by
        have := hm.filterMap fun p => match p.2 with
          | .add _ => none
          | .sub b => some b
        simpa [Heap.removing, removingOf] using this
      refine ⟨?_, ?_⟩
      · show h.live.Perm (b :: h.owned ++ addingOf (h.todo.erase (t', .add b)))
        exact hi.live.trans ((ea.append_left h.owned).trans List.perm_middle)
      · show fetchAdd h.counter b.size =
          totalSize (b :: (h.owned ++ removingOf (h.todo.erase (t', .add b)))) % 2 ^ 64
        rw [totalSize_cons, totalSize_append, ← totalSize_perm er, ← totalSize_append]
        change fetchAdd h.counter b.size = (b.size + totalSize h.accounted) % 2 ^ 64
        rw [hi.counter]
        exact fetchAdd_mod _ _
    · next t' b hf =>
      cases hs
      have hm := List.perm_cons_erase (find_mem hf)
      have ea : h.adding.Perm (addingOf (h.todo.erase (t', .sub b))) := by
        have := hm.filterMap fun p => match p.2 with
          | .add b => some b
          | .sub _ => none
        simpa [Heap.adding, addingOf] using this
      have er : h.removing.Perm (b :: removingOf (h.todo.erase (t', .sub b))) := by
        have := hm.filterMap fun p => match p.2 with
          | .add _ => none
          | .sub b => some b
        simpa [Heap.removing, removingOf] using this
      refine ⟨?_, ?_⟩
      · show h.live.Perm (h.owned ++ addingOf (h.todo.erase (t', .sub b)))
        exact hi.live.trans (ea.append_left h.owned)
      · have e : totalSize h.accounted = b.size + totalSize (h.owned ++ removingOf (h.todo.erase (t', .sub b))) := by
          rw [Heap.accounted, totalSize_append, totalSize_perm er, totalSize_cons, totalSize_append]; omega
        show fetchSub h.counter b.size = totalSize (h.owned ++ removingOf (h.todo.erase (t', .sub b))) % 2 ^ 64
        have hc := hi.counter
        rw [e] at hc
        rw [hc]
        exact fetchSub_mod _ _
    · cases hs
  | sysDealloc t b =>
    simp only [Heap.step] at hs
    split at hs
    · next hc =>
      cases hs
      refine ⟨?_, ?_⟩
      · have e : Heap.adding { h with live := h.live.erase b, owned := h.owned.erase b, todo := (t, .sub b) :: h.todo } = h.adding := by
          simp [Heap.adding, addingOf]
        rw [e]
        have := hi.live.erase b
        rwa [List.erase_append_left _ hc.2] at this
      · have e : Heap.accounted { h with live := h.live.erase b, owned := h.owned.erase b, todo := (t, .sub b) :: h.todo } =
            h.owned.erase b ++ b :: h.removing := by
          simp [Heap.accounted, Heap.removing, removingOf]
        rw [e, totalSize_append, totalSize_cons]
        show h.counter = _
        rw [hi.counter, Heap.accounted, totalSize_append, totalSize_erase hc.2]
        congr 1
        omega
    · cases hs

theorem Heap.Inv.run {h h' : Heap} {es : List HeapEv} (hi : h.Inv) (hs : h.run es = some h') : h'.Inv := by
  induction es generalizing h with
  | nil => cases hs; exact hi
  | cons e es ih =>
    rw [Heap.run, Option.bind_eq_some_iff] at hs
    obtain ⟨h1, h2, h3⟩ := hs
    exact ih (hi.step h2) h3

/-- **C68** After any interleaving of the steps of any number of threads, the counter is the total size of the blocks whose
addition has run and whose removal has not, modulo `2^64` (which matters only if that total does not fit). -/
theorem C68_counter (es : List HeapEv) (h : Heap) (hr : Heap.start.run es = some h) :
    h.allocated = totalSize h.accounted % 2 ^ 64 ∧ (totalSize h.accounted < 2 ^ 64 → h.allocated = totalSize h.accounted) := by
  have := (Heap.Inv.start.run hr).counter
  exact ⟨this, fun hlt => by rw [Heap.allocated, this, Nat.mod_eq_of_lt hlt]⟩

/-- **C68** The accounts and the memory in use differ only by the calls in progress. -/
theorem C68_live (es : List HeapEv) (h : Heap) (hr : Heap.start.run es = some h) :
    totalSize h.live + totalSize h.removing = totalSize h.accounted + totalSize h.adding := by
  have := totalSize_perm (Heap.Inv.start.run hr).live
  rw [this, Heap.accounted, totalSize_append, totalSize_append]
  omega

/-- **C68** When no call of the allocator is in progress, the counter is the number of bytes in use. -/
theorem C68_quiescent (es : List HeapEv) (h : Heap) (hr : Heap.start.run es = some h) (hq : h.todo = [])
    (hfit : totalSize h.live < 2 ^ 64) : h.allocated = totalSize h.live := by
  have h1 := C68_live es h hr
  have h2 : h.adding = [] := by simp [Heap.adding, addingOf, hq]
  have h3 : h.removing = [] := by simp [Heap.removing, removingOf, hq]
  rw [h2, h3] at h1
  have : totalSize h.live = totalSize h.accounted := by simpa [totalSize] using h1
  rw [this] at hfit ⊢
  exact (C68_counter es h hr).2 hfit

/-- **C68** The counter never drops below zero: whenever a removal is about to run, the counter is at least the size to be
removed, provided the sizes fit. -/
theorem C68_no_underflow (es : List HeapEv) (h : Heap) (hr : Heap.start.run es = some h) (hfit : totalSize h.accounted < 2 ^ 64)
    (t : Nat) (b : MemBlock) (ht : (t, Todo.sub b) ∈ h.todo) : b.size ≤ h.allocated := by
  rw [(C68_counter es h hr).2 hfit, Heap.accounted, totalSize_append]
  have hb : b ∈ h.removing := by
    rw [Heap.removing, removingOf, List.mem_filterMap]
    exact ⟨_, ht, rfl⟩
  rw [totalSize_erase hb]
  omega

/-- two threads: thread 1 frees a block while thread 2 reuses its address before the counter is updated -/
def exHistory : List HeapEv :=
  [.sysAlloc 1 ⟨100, 8⟩, .finish 1, .sysDealloc 1 ⟨100, 8⟩, .sysFail 3, .sysAlloc 2 ⟨100, 5⟩, .finish 2]

/-- in the middle of that history the counter is 13 although only 5 bytes are in use; at the end it is 5 -/
example : (∃ h, Heap.start.run exHistory = some h ∧ h.allocated = 13 ∧ totalSize h.live = 5 ∧ totalSize h.accounted = 13) ∧
    ∃ h, Heap.start.run (exHistory ++ [.finish 1]) = some h ∧ h.todo = [] ∧ h.allocated = 5 ∧ totalSize h.live = 5 := by
  exact ⟨⟨⟨[⟨100, 5⟩], [⟨100, 5⟩], [(1, .sub ⟨100, 8⟩)], 13⟩, by decide +kernel, by decide +kernel, by decide +kernel, by decide +kernel⟩,
    ⟨⟨[⟨100, 5⟩], [⟨100, 5⟩], [], 5⟩, by decide +kernel, by decide +kernel, by decide +kernel, by decide +kernel⟩⟩

/-- **C69** is false of the code: a gauge created while a block is held, and read after it was freed, panics in a debug build and
returns a number close to `2^64` in a release build. -/
theorem C69_false : ∃ es es' h h', Heap.start.run es = some h ∧ h.run es' = some h' ∧ h.todo = [] ∧ h'.todo = [] ∧
    (Gauge.new h).measure true h' = .error .arith ∧ (Gauge.new h).measure false h' = .ok (2 ^ 64 - 8) :=
  ⟨[.sysAlloc 1 ⟨100, 8⟩, .finish 1], [.sysDealloc 1 ⟨100, 8⟩, .finish 1], ⟨[⟨100, 8⟩], [⟨100, 8⟩], [], 8⟩, ⟨[], [], [], 0⟩,
    by decide +kernel, by decide +kernel, rfl, rfl, by decide +kernel, by decide +kernel⟩

theorem Heap.run_append (h : Heap) (es es' : List HeapEv) : h.run (es ++ es') = (h.run es).bind fun h => h.run es' := by
  induction es generalizing h with
  | nil => rfl
  | cons e es ih =>
    rw [List.cons_append, Heap.run, Heap.run, Option.bind_assoc]
    congr 1
    funext h1
    exact ih h1

/-- **C69**, partial: if at least as many bytes are accounted for as at its creation, the gauge returns the difference, whatever
happened in between; in a release build it always returns the difference modulo `2^64`. Missing: see `C69_false`. -/
theorem C69_gauge_partial (debug : Bool) (es es' : List HeapEv) (h h' : Heap) (hr : Heap.start.run es = some h) (hr' : h.run es' = some h')
    (h1 : totalSize h.accounted < 2 ^ 64) (h2 : totalSize h'.accounted < 2 ^ 64) :
    (totalSize h.accounted ≤ totalSize h'.accounted →
      (Gauge.new h).measure debug h' = .ok (totalSize h'.accounted - totalSize h.accounted)) ∧
    ∃ v, (Gauge.new h).measure false h' = .ok v ∧ v < 2 ^ 64 ∧ (v + totalSize h.accounted) % 2 ^ 64 = totalSize h'.accounted % 2 ^ 64 := by
  have e1 := (C68_counter es h hr).2 h1
  have e2 := (C68_counter (es ++ es') h' (by rw [Heap.run_append, hr]; exact hr')).2 h2
  unfold Gauge.measure Gauge.new subBytes
  rw [e1, e2]
  refine ⟨fun hle => by rw [if_pos hle], ?_⟩
  by_cases hle : totalSize h.accounted ≤ totalSize h'.accounted
  · exact ⟨_, by rw [if_pos hle], by omega, by rw [Nat.sub_add_cancel hle]⟩
  · refine ⟨_, by rw [if_neg hle, if_neg (by simp)], Nat.mod_lt _ (by norm_num), ?_⟩
    omega

example : (Gauge.new ⟨[⟨100, 8⟩], [⟨100, 8⟩], [], 8⟩).measure true ⟨[⟨200, 3⟩, ⟨100, 8⟩], [⟨200, 3⟩, ⟨100, 8⟩], [], 11⟩ = .ok 3 := by
  have := (C69_gauge_partial true [.sysAlloc 1 ⟨100, 8⟩, .finish 1] [.sysAlloc 1 ⟨200, 3⟩, .finish 1] ⟨[⟨100, 8⟩], [⟨100, 8⟩], [], 8⟩
    ⟨[⟨200, 3⟩, ⟨100, 8⟩], [⟨200, 3⟩, ⟨100, 8⟩], [], 11⟩ (by decide +kernel) (by decide +kernel) (by decide +kernel) (by decide +kernel)).1
    (by decide +kernel)
  rw [this]
  decide +kernel

end Attimo

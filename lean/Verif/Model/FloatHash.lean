import Verif.Model.FloatProfile
import Verif.Model.Hasher
/-!
# Double precision: hashing with rounding (`src/index.rs:99-255`)

As in `Model/Hasher`, with the result of every operation rounded. As in `Model/FloatProfile`, the transforms of `rustfft` are not modelled:
`sliding k` stands for the calls that `sliding_dot_product_write` makes in round `k`, in the order in which the threads make them.
-/

namespace Attimo

noncomputable section

variable (ρ : Rounding)

/-- the value of a projection in units of the width, after saturation (`src/index.rs:240-243`) -/
def fpQuantLevel (x shift width : ℝ) : ℝ :=
  let h := ρ.rnd (ρ.rnd (x + shift) / width)
  if |h| > 128 then signumR h * 127 else h

/-- the hash byte of a projection (`src/index.rs:240-244`) -/
def fpQuantByte (x shift width : ℝ) : BitVec 8 := BitVec.ofInt 8 (truncZ (fpQuantLevel ρ x shift width))

/-- the closure given to `znormalized_sliding_dot_product_write` (`src/index.rs:238-252`) -/
def fpHashStep (h : Hasher) (k i : Nat) (x : F) (out : H × Nat) : R (H × Nat) :=
  match x with
  | some x => do
    let shift ← ridx h.shifts k
    let hv ← setByte out.1 k (fpQuantByte ρ x shift h.width)
    return (hv, i % 2 ^ 32)
  | none => .ok (BitVec.allOnes 64, 2 ^ 32 - 1)

/-- one call of the closure of `znormalized_sliding_dot_product_write` (`src/timeseries.rs:493-502`) for window `i` with product `val` -/
def fpZCall {O} (T : WTS) (func : Nat → F → O → R O) (sumv : ℝ) (i : Nat) (val : ℝ) (o : O) : R O := do
  let sd ← T.sd i
  if sd < flatThreshold then func i none o
  else
    let m ← T.mean i
    rassert (decide (sd > 0))
    func i (some (ρ.rnd (ρ.rnd (val / sd) - ρ.rnd (ρ.rnd (sumv * m) / sd)))) o

/-- the calls on the output, in the given order -/
def fpZCalls {O} (T : WTS) (func : Nat → F → O → R O) (sumv : ℝ) : List (Nat × ℝ) → List O → R (List O)
  | [], out => .ok out
  | a :: as, out => do
    let o ← ridx out a.1
    let o ← fpZCall ρ T func sumv a.1 a.2 o
    fpZCalls T func sumv as (out.set a.1 o)

/-- `znormalized_sliding_dot_product_write` (`src/timeseries.rs:483-504`) -/
def fpZslidingWrite {O} (T : WTS) (sliding : List ℝ → R (List (Nat × ℝ))) (v : List ℝ) (out : List O) (func : Nat → F → O → R O) :
    R (List O) := do
  let sumv := fpSum ρ v
  let as ← sliding v
  fpZCalls ρ T func sumv as out

/-- the loop over the hash functions (`src/index.rs:233-254`), from `k` on -/
def fpHashLoop (h : Hasher) (T : WTS) (sliding : Nat → List ℝ → R (List (Nat × ℝ))) : Nat → Nat → List (H × Nat) → R (List (H × Nat))
  | _, 0, out => .ok out
  | k, cnt + 1, out => do
    let v ← ridx h.vectors k
    let out ← fpZslidingWrite ρ T (sliding k) v out (fpHashStep ρ h k)
    fpHashLoop h T sliding (k + 1) cnt out

/-- `Hasher::hash` (`src/index.rs:223-255`) with output slice `out` -/
def Hasher.fpHash (h : Hasher) (T : WTS) (sliding : Nat → List ℝ → R (List (Nat × ℝ))) (out : List (H × Nat)) (maxK : Nat) :
    R (List (H × Nat)) := do
  rassert (decide (T.numSubsequences = out.length))
  fpHashLoop ρ h T sliding 0 maxK (out.map (fun _ => (0, 0)))

end

end Attimo

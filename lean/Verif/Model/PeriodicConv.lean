import Verif.Model.Tiling

/-!
# Periodic convolution modules (`ml/layers.py`)

The wrapped Haiku modules `hk.Conv{1,2,3}D` and `hk.Conv{1,2,3}DTranspose` (padding `'VALID'`) are
modelled by their defining sums, for arbitrary weights `w` and bias `b`.
-/

namespace JaxCfd
variable {d : ℕ} {K : Type}

/-- `hk.ConvND(.., padding='VALID', rate=rate)`: convolution plus bias. -/
def hkConv [Semiring K] (k : Fin d → ℕ) (cin cout : ℕ) (w : Idx d → ℤ → ℤ → K) (b : ℤ → K) (rate : ℕ) (y : Tiled d K) :
    Except Err (Tiled d K) := do
  let z ← convGeneralDilated k cin cout w rate y
  pure { z with data := fun n j co => z.data n j co + b co }

/-- The padding computed by `PeriodicConvGeneral.__init__`: ml/layers.py:54-58. -/
def periodicConvPadding (k rate : ℕ) : ℕ × ℕ :=
  let effective := k + (rate - 1) * (k - 1)
  let padLeft := effective / 2
  (padLeft, effective - padLeft - 1)

/-- `PeriodicConvGeneral.__call__`: ml/layers.py:64-66. -/
def periodicConv [Semiring K] (k : Fin d → ℕ) (cin cout : ℕ) (w : Idx d → ℤ → ℤ → K) (b : ℤ → K) (rate : ℕ)
    (layout : Option (Fin d → ℕ)) (x : Chan d K) : Except Err (Chan d K) :=
  applyConvolution (hkConv k cin cout w b rate) x layout fun a => periodicConvPadding (k a) rate

/-- `hk.ConvNDTranspose(.., stride=s, padding='VALID')`, i.e. `lax.conv_transpose`: the input is spread
out with stride `s`, padded by `k - 1` zeros at the start and `s - 1 + max(k - s, 0)` at the end, and
convolved with the kernel. -/
def hkConvTranspose [Semiring K] (k : Fin d → ℕ) (cin cout : ℕ) (w : Idx d → ℤ → ℤ → K) (b : ℤ → K) (s : ℕ) (y : Tiled d K) :
    Except Err (Tiled d K) :=
  if y.chan ≠ cin then .error .type
  else .ok
    { batch := y.batch
      shape := fun a => y.shape a * s + (k a - s)
      chan := cout
      data := fun n t co => (∑ o ∈ Fintype.piFinset fun a => Finset.range (k a), ∑ ci ∈ Finset.range cin,
        (if ∀ a, (s : ℤ) ∣ t a + (o a : ℕ) - ((k a : ℤ) - 1) ∧ 0 ≤ (t a + (o a : ℕ) - ((k a : ℤ) - 1)) / (s : ℤ) ∧
            (t a + (o a : ℕ) - ((k a : ℤ) - 1)) / (s : ℤ) < y.shape a
          then y.data n (fun a => (t a + (o a : ℕ) - ((k a : ℤ) - 1)) / (s : ℤ)) ci else 0) *
          w (fun a => (o a : ℤ)) ci co) + b co }

/-- The padding computed by `PeriodicConvTransposeGeneral.__init__`: ml/layers.py:262-268. -/
def convTransposePadding (k s : ℕ) : ℕ × ℕ := (k / s + 1, 0)

/-- `PeriodicConvTransposeGeneral` (`tile_layout=None`): ml/layers.py:257-297.  The output is cut to
`stride * size` entries starting at `stride * pad_left` and rolled back by half the kernel. -/
def periodicConvTranspose [Semiring K] (k : Fin d → ℕ) (cin cout : ℕ) (w : Idx d → ℤ → ℤ → K) (b : ℤ → K) (s : ℕ)
    (layout : Option (Fin d → ℕ)) (x : Chan d K) : Except Err (Chan d K) :=
  if layout.isSome then .error .notImplemented
  else do
    let out ← applyConvolution (hkConvTranspose k cin cout w b s) x none fun a => convTransposePadding (k a) s
    let stop : Fin d → ℕ := fun a => min (out.shape a) (s * (x.shape a + (convTransposePadding (k a) s).1))
    let size : Fin d → ℕ := fun a => stop a - s * (convTransposePadding (k a) s).1
    pure
      { shape := size
        chan := out.chan
        data := fun t c => out.data (fun a => (t a + (((k a - 1) / 2 : ℕ) : ℤ)) % (size a : ℤ) +
          ((s * (convTransposePadding (k a) s).1 : ℕ) : ℤ)) c }

end JaxCfd

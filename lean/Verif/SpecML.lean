import Verif.Model.Tiling

/-! Specification vocabulary for the machine-learning utilities: periodic access, valid convolutions. -/

namespace JaxCfd
variable {d : ℕ} {K : Type}

/-- Same shape, same number of channels, same in-range entries. -/
def Chan.Eqv (x y : Chan d K) : Prop :=
  x.shape = y.shape ∧ x.chan = y.chan ∧
    ∀ (i : Idx d) (c : ℤ), InR x.shape i → 0 ≤ c → c < x.chan → x.data i c = y.data i c

/-- The periodic continuation of an array: any integer position is taken modulo the shape. -/
def Chan.per (x : Chan d K) (i : Idx d) (c : ℤ) : K := x.data (fun a => i a % (x.shape a : ℤ)) c

/-- The array translated cyclically: entry `i` is the old entry at `i + s`. -/
def Chan.translate (x : Chan d K) (s : Idx d) : Chan d K :=
  { x with data := fun i c => x.per (fun a => i a + s a) c }

/-- `conv` is a convolution "with valid boundary conditions" and window `k`: an array of shape
`[batch, *n, cin]` becomes one of shape `[batch, *(n - k + 1), cout]`, and each output is one fixed
function `F` of the window of inputs starting there. -/
structure ValidConv (k : Fin d → ℕ) (cin cout : ℕ) (F : (Idx d → ℤ → K) → ℤ → K)
    (conv : Tiled d K → Except Err (Tiled d K)) : Prop where
  /-- `F` only looks at the window -/
  window : ∀ w w' : Idx d → ℤ → K, (∀ (o : Idx d) (c : ℤ), InR k o → 0 ≤ c → c < cin → w o c = w' o c) →
    ∀ co, F w co = F w' co
  apply : ∀ y : Tiled d K, y.chan = cin → (∀ a, k a ≤ y.shape a) →
    ∃ z : Tiled d K, conv y = .ok z ∧ z.batch = y.batch ∧ z.chan = cout ∧
      (∀ a, z.shape a = y.shape a + 1 - k a) ∧
      ∀ (b : ℤ) (j : Idx d) (co : ℤ), 0 ≤ b → b < y.batch → InR z.shape j → 0 ≤ co → co < cout →
        z.data b j co = F (fun o c => y.data b (fun a => j a + o a) c) co

end JaxCfd

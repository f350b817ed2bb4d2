import Verif.Model.TopHat

/-!
# What `top_hat_downsample` is meant to compute

Positions are measured in fine cells: the fine cell `m` occupies `[m, m+1]` and its center is `m + 1/2`.
-/

namespace JaxCfd
variable {d : ℕ} {K : Type}

/-- The coarse point `i` (grid `factor` times as coarse, offset `o` within its cell) lies at `factor * (i + o)`; the window of
`filter` fine cells centered there starts at the cell `lo`.  A filter of size 1 selects the point itself. -/
def WindowAt (o : ℚ) (factor filter : ℕ) (i lo : ℤ) : Prop :=
  if filter = 1 then lo = i else (lo : ℚ) = factor * (i + o) - filter / 2

/-- The mean of `C` over the window of `f` cells starting at `lo`, indices taken modulo the shape `n`. -/
noncomputable def windowMean [Field K] (n f : Fin d → ℕ) (lo : Idx d) (C : Idx d → K) : K :=
  (∑ k ∈ box f, C fun a => (lo a + k a) % (n a : ℤ)) / ((∏ a, f a : ℕ) : K)

/-- The values of a cell-centered array continued past the ends of an axis as the boundary condition prescribes: periodically; so
that the mean across a Dirichlet wall is the wall value; by reflection plus the Neumann increment. -/
def continued [Field K] [HasNan K] (bc : BC d K) (u : GridArray d K) (ax : Fin d) (i : Idx d) : K :=
  if bc.types ax = (.periodic, .periodic) then u.data (Function.update i ax (i ax % (u.grid.shape ax : ℤ)))
  else if i ax < 0 then
    if (bc.types ax).1 = .dirichlet then 2 * (bc.constantValues ax).1 - u.data (Function.update i ax (-1 - i ax))
    else u.data (Function.update i ax (-1 - i ax)) - u.grid.step ax * (bc.constantValues ax).1
  else if (u.grid.shape ax : ℤ) ≤ i ax then
    if (bc.types ax).2 = .dirichlet then
      2 * (bc.constantValues ax).2 - u.data (Function.update i ax (2 * u.grid.shape ax - 1 - i ax))
    else u.data (Function.update i ax (2 * u.grid.shape ax - 1 - i ax)) + u.grid.step ax * (bc.constantValues ax).2
  else u.data i

end JaxCfd

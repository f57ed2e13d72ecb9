import Verif.Model.Matrix

/-!
# `SpecialMatrices.hpp`

Constructors of the identity, diagonal and interpolation matrices.  The decimal literals of the
code are written as the fractions they denote (all are dyadic, hence exact doubles).
-/

namespace EF

namespace Mat

variable {K : Type} [Field K]

/-- `IdentityMatrix(N)`.  SpecialMatrices.hpp:18-25. -/
def identity (N : Nat) : Res (Mat K) :=
  forN N (fun i A => A.set i i 1) (zeros N N)

/-- `DiagonalMatrix(diag)`.  SpecialMatrices.hpp:81-88. -/
def diagonal (d : Vec K) : Res (Mat K) :=
  forN d.size (fun i A => do
    let x ← d.get i
    A.set i i x) (zeros d.size d.size)

/-- `InterpolationMatrixFine2Coarse(ncoarse)`.  SpecialMatrices.hpp:102-114. -/
def fine2coarse (ncoarse : Nat) : Res (Mat K) :=
  loop2 ncoarse (2 * ncoarse) (fun i j A =>
    if j = 2 * i then do
      let A ← A.set i j (1 / 2)
      A.set i (j + 1) (1 / 2)
    else pure A) (fill ncoarse (2 * ncoarse) 0)

/-- `a - b` on `size_t` operands: wraps around below zero.  (Sizes themselves are unbounded naturals
in this model; only the wrap below zero is kept, since it decides which branch runs.) -/
def sizeSub (a b : Nat) : Nat := if b ≤ a then a - b else 2 ^ 64 + a - b

/-- `InterpolationMatrixCoarse2Fine(nfine)`.  SpecialMatrices.hpp:145-171.
`edge_coefficients = {1.40625, -0.5625, 0.15625}`; `ncols_-k` is computed in `size_t`. -/
def coarse2fine (nfine : Nat) : Res (Mat K) :=
  let nrows := nfine
  let ncols := nfine / 2
  let e0 : K := 45 / 32
  let e1 : K := -9 / 16
  let e2 : K := 5 / 32
  loop2 nrows ncols (fun i j A =>
    if i = 0 ∧ j = 0 then do
      let A ← A.set i j e0
      let A ← A.set i (j + 1) e1
      A.set i (j + 2) e2
    else if i = sizeSub nrows 1 ∧ j = sizeSub ncols 3 then do
      let A ← A.set i j e2
      let A ← A.set i (j + 1) e1
      A.set i (j + 2) e0
    else if i = 2 * j + 1 ∧ i % 2 = 1 ∧ i ≠ sizeSub nrows 1 then do
      let A ← A.set i j (3 / 4)
      let A ← A.set i (j + 1) (1 / 4)
      let A ← A.set (i + 1) j (1 / 4)
      A.set (i + 1) (j + 1) (3 / 4)
    else pure A) (fill nrows ncols 0)

end Mat
end EF

import Verif.Model.Cholesky
import Verif.Model.LU
import Verif.Model.QR
import Verif.Model.Eigen
import Verif.Model.Svd

/-!
# The interface of the solvers

`DecompositionSolver` (`/repo/decomposition_solver.go:19-60`), the six types behind it, the `Solver` methods that hand
them out, and the constructors with the default thresholds.
-/

namespace Linear

variable {α : Type} [Flt α] {m n : Nat}

/-- A value of the interface `DecompositionSolver`, `/repo/decomposition_solver.go:19-60`, made by `Solver` of one of the
decompositions: `/repo/lu_decomposition.go:237-247`, `/repo/cholesky_decomposition.go:161-171`,
`/repo/qr_decomposition.go:277-287`, `/repo/rrqr_decomposition.go:158-169`, `/repo/eigen_decomposition.go:305-310, 703-709`,
`/repo/singular_value_decomposition.go:633-664`. Each holds a pointer to its decomposition; here the value of it, since no
solver method writes. The thresholds of `qr` and `rrqr` are fields of the decompositions, `epsEd` is a constant of the
package, and `svd` holds the pseudo-inverse computed when the solver was made. -/
inductive Solver (α : Type) (m n : Nat) where
  | lu (d : LU α m n)
  | chol (d : Chol α m n)
  | qr (thr : α) (s : QR α m n (min m n))
  | rrqr (thr : α) (s : RRQR α m n (min m n))
  | eig (epsEd : α) (s : Eig α m)
  | svd (s : Svd α) (p : SMat α)

/-- `IsNonSingular`, `/repo/decomposition_solver.go:39` and the methods `/repo/lu_decomposition.go:249-251`,
`/repo/cholesky_decomposition.go:173-176`, `/repo/qr_decomposition.go:289-291`, `/repo/rrqr_decomposition.go:171-173`,
`/repo/eigen_decomposition.go:711-731`, `/repo/singular_value_decomposition.go:674-676`. -/
def Solver.isNonSingular : Solver α m n → Res Bool
  | .lu d => pure d.isNonSingular
  | .chol d => pure d.isNonSingular
  | .qr thr s => s.isNonSingular thr
  | .rrqr thr s => s.isNonSingular thr
  | .eig epsEd s => s.isNonSingular epsEd
  | .svd s _ => pure s.isNonSingular

/-- `SolveVector`, `/repo/decomposition_solver.go:26` and the methods that implement it. -/
def Solver.solveVector (b : RVec α) : Solver α m n → Res (List α)
  | .lu d => d.solveVector b
  | .chol d => d.solveVector b
  | .qr thr s => s.solveVector thr b
  | .rrqr thr s => s.solveVector thr b
  | .eig epsEd s => s.solveVector epsEd b
  | .svd _ p => p.m.operateVector b

/-- `SolveMatrix`, `/repo/decomposition_solver.go:34` and the methods that implement it. -/
def Solver.solveMatrix {p q : Nat} (b : Mat α p q) : Solver α m n → Res (SMat α)
  | .lu d => d.solveMatrix b
  | .chol d => d.solveMatrix b
  | .qr thr s => s.solveMatrix thr b
  | .rrqr thr s => s.solveMatrix thr b
  | .eig epsEd s => s.solveMatrix epsEd b
  | .svd _ p => p.m.multiply b

/-- `Inverse`, `/repo/decomposition_solver.go:59` and the methods that implement it. That of the singular value
decomposition hands out its own matrix. -/
def Solver.inverse : Solver α m n → Res (SMat α)
  | .lu d => d.inverse
  | .chol d => d.inverse
  | .qr thr s => s.inverse thr
  | .rrqr thr s => s.inverse thr
  | .eig epsEd s => s.inverse epsEd
  | .svd _ p => pure p

/-- The constructors with a solver, and their thresholds: `/repo/lu_decomposition.go:57`, `/repo/cholesky_decomposition.go:69`,
`/repo/qr_decomposition.go:54`, `/repo/rrqr_decomposition.go:45`, `/repo/eigen_decomposition.go:76`,
`/repo/singular_value_decomposition.go:46`. -/
inductive Solver.Kind (α : Type) where
  | lu (thr : α)
  | chol (rel pos : α)
  | qr (thr : α)
  | rrqr (thr : α)
  | eig
  | svd

/-- The constants of the package that the constructors use: `math.Inf(-1)` (`/repo/lu_decomposition.go:88`),
`default_too_small_lud` (`/repo/lu_decomposition.go:24`), the two defaults of `/repo/cholesky_decomposition.go:24-25`, and those
of the general and singular value decompositions. `symTol` is `10 * rows * columns * doubleeps`
(`/repo/eigen_decomposition.go:78`). -/
structure Solver.Lit (α : Type) where
  ninf : α
  luSmall : α
  cholSym : α
  cholPos : α
  schur : Schur.Lit α
  eig : Eig.Lit α
  symTol : Nat → Nat → α
  svd : Svd.Lit α

/-- The constructors that take a matrix alone, `/repo/lu_decomposition.go:50-52`, `/repo/cholesky_decomposition.go:62-64`,
`/repo/qr_decomposition.go:50-52`, `/repo/rrqr_decomposition.go:41-43`. -/
def Solver.Lit.luDefault (κ : Solver.Lit α) : Solver.Kind α := .lu κ.luSmall
/-- `NewDefaultCholeskyDecomposition`, `/repo/cholesky_decomposition.go:62-64`. -/
def Solver.Lit.cholDefault (κ : Solver.Lit α) : Solver.Kind α := .chol κ.cholSym κ.cholPos
/-- `NewQRDecomposition`, `/repo/qr_decomposition.go:50-52`. -/
def Solver.qrDefault : Solver.Kind α := .qr Flt.zero
/-- `NewRRQRDecomposition`, `/repo/rrqr_decomposition.go:41-43`. -/
def Solver.rrqrDefault : Solver.Kind α := .rrqr Flt.zero

/-- Construct the decomposition and call `Solver` on it. `none` stands for an iteration that does not end within `fuel` steps
(general eigen decomposition and singular values only). The lines are those at `Solver`. -/
def Solver.make (κ : Solver.Lit α) (fuel : Nat) (k : Solver.Kind α) (a : Mat α m n) : Res (Option (Solver α m n)) :=
  match k with
  | .lu thr => do return some (.lu (← LU.new thr κ.ninf a))
  | .chol rel pos => do return some (.chol (← Chol.new rel pos a))
  | .qr thr => do return some (.qr thr (← QR.new a))
  | .rrqr thr => do return some (.rrqr thr (← RRQR.new a))
  | .eig => do
    match ← Eig.new κ.schur κ.eig (κ.symTol m (← a.colDim)) fuel a with
    | none => return none
    | some s =>
      s.solver κ.eig.epsEd
      return some (.eig κ.eig.epsEd s)
  | .svd => do
    match ← Svd.new κ.svd fuel a with
    | none => return none
    | some s =>
      let p ← s.pinv
      return some (.svd s p)

end Linear

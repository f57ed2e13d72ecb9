import Verif.Model.SpecialMatrices

/-!
# Model of `/repo/src/HPSAlgorithm.hpp` (and the data part of `Patch.hpp`)

The tree is a pure value here; `Verif.Model.Quadtree` relates it to the path-indexed node map and the
p4est search order.  Member variables of `HPSAlgorithm` that are overwritten before every use (index
sets, matrix blocks) are locals.  Timers, logging and barriers are omitted.
-/

namespace EF

variable {K : Type}

/-- The data of `FiniteVolumeGrid`.  Patches/FiniteVolume/FiniteVolumeGrid.hpp, .cpp:9-19.  The
spacings are derived (`dx = (x_upper - x_lower)/nx`) and recomputed where they are used. -/
structure Grid (K : Type) where
  nx : Nat
  ny : Nat
  xl : K
  xu : K
  yl : K
  yu : K
  deriving DecidableEq, Repr

/-- `FiniteVolumePatch`: grid, serial matrices and vectors, and `n_coarsens` of `PatchBase`.
Patch.hpp:15-173, FiniteVolumePatch.cpp:26-68. -/
structure Patch (K : Type) where
  nCoarsens : Nat
  grid : Grid K
  X : Mat K
  H : Mat K
  S : Mat K
  T : Mat K
  u : Vec K
  g : Vec K
  v : Vec K
  f : Vec K
  h : Vec K
  w : Vec K
  deriving DecidableEq

namespace Patch

/-- A patch as constructed from a grid: everything else empty.  FiniteVolumePatch.cpp:9-17,
Patch.hpp:83. -/
def fresh (grid : Grid K) : Patch K :=
  ⟨0, grid, .empty, .empty, .empty, .empty, .empty, .empty, .empty, .empty, .empty, .empty⟩

/-- `PatchBase::size()`: `grid().nx() / pow(2, n_coarsens)` truncated to `int`.  Patch.hpp:99-101. -/
def size (p : Patch K) : Nat := p.grid.nx / 2 ^ p.nCoarsens

end Patch

/-- The interface `PatchSolverBase`: the three virtual functions the algorithm calls.
PatchSolver.hpp. -/
structure PatchSolver (K : Type) where
  /-- `buildD2N(grid)` -/
  buildD2N : Grid K → Res (Mat K)
  /-- `particularNeumannData(grid, f)` -/
  particularNeumannData : Grid K → Vec K → Res (Vec K)
  /-- `solve(grid, g, f)` -/
  solve : Grid K → Vec K → Vec K → Res (Vec K)

/-- The two application options the algorithm reads (`options["cache-operators"]`,
`options["homogeneous-rhs"]`, both read with `std::get<bool>`).  HPSAlgorithm.hpp:134, 532, 587,
1202. -/
structure HPSOptions where
  cacheOperators : Bool
  homogeneousRhs : Bool

/-- A family: the parent `tau` and the children `alpha` (lower left), `beta` (lower right), `gamma`
(upper left), `omega` (upper right), passed by reference to every step. -/
structure Fam (P : Type) where
  tau : P
  a : P
  b : P
  c : P
  d : P

namespace HPS

variable [Field K]

/-- `tagPatchesForCoarsening_`.  HPSAlgorithm.hpp:676-696.  `static_cast<int>(log2(0))` is undefined.
The result lists the four tags. -/
def tags (F : Fam (Patch K)) : Res (Nat × Nat × Nat × Nat) :=
  let m := min (min F.a.size F.b.size) (min F.c.size F.d.size)
  if m = 0 then .ub
  else .ok (Nat.log2 F.a.size - Nat.log2 m, Nat.log2 F.b.size - Nat.log2 m,
    Nat.log2 F.c.size - Nat.log2 m, Nat.log2 F.d.size - Nat.log2 m)

/-- `blockDiagonalMatrix({L, L, L, L})`.  HPSAlgorithm.hpp:726-731, 1039-1040, 1177-1178. -/
def diag4 (L : Mat K) : Res (Mat K) := Mat.blockDiagonal [L, L, L, L]

/-- One pass of the inner loop of `coarsen_`.  HPSAlgorithm.hpp:718-736 (`n` is the loop counter). -/
def coarsenStep (n : Nat) (p : Patch K) : Res (Patch K) := do
  let nfine := p.grid.nx / 2 ^ n
  let ncoarse := nfine / 2
  let l21 ← Mat.fine2coarse ncoarse
  let L21 ← diag4 l21
  let l12 ← Mat.coarse2fine nfine
  let L12 ← diag4 l12
  let T ← L21.mul p.T
  let T ← T.mul L12
  pure { p with T := T, nCoarsens := p.nCoarsens + 1 }

/-- The inner loop of `coarsen_` for one patch.  HPSAlgorithm.hpp:717-737. -/
def coarsenPatch (tag : Nat) (p : Patch K) : Res (Patch K) := forN tag coarsenStep p

/-- `coarsen_`.  HPSAlgorithm.hpp:707-741. -/
def coarsen (F : Fam (Patch K)) : Res (Fam (Patch K)) := do
  let t ← tags F
  let a ← coarsenPatch t.1 F.a
  let b ← coarsenPatch t.2.1 F.b
  let c ← coarsenPatch t.2.2.1 F.c
  let d ← coarsenPatch t.2.2.2 F.d
  pure ⟨F.tau, a, b, c, d⟩

/-- The index sets written by `createIndexSets_`. -/
structure IndexSets where
  ab : Vec Int
  ag : Vec Int
  at_ : Vec Int
  ba : Vec Int
  bo : Vec Int
  bt : Vec Int
  ga : Vec Int
  go : Vec Int
  gt : Vec Int
  ob : Vec Int
  og : Vec Int
  ot : Vec Int

/-- `createIndexSets_`.  HPSAlgorithm.hpp:752-788. -/
def createIndexSets (F : Fam (Patch K)) : Res IndexSets :=
  if ¬ (F.a.size = F.b.size ∧ F.b.size = F.c.size ∧ F.c.size = F.d.size) then .throw .invalidArgument
  else do
    let nside : Int := ((F.a.T.nrows / 4 : Nat) : Int)
    let iW ← Vec.range 0 (nside - 1)
    let iE ← Vec.range nside (2 * nside - 1)
    let iS ← Vec.range (2 * nside) (3 * nside - 1)
    let iN ← Vec.range (3 * nside) (4 * nside - 1)
    let at_ ← Vec.concatenate [iW, iS]
    let bt ← Vec.concatenate [iE, iS]
    let gt ← Vec.concatenate [iW, iN]
    let ot ← Vec.concatenate [iE, iN]
    pure { ab := iE, ag := iN, at_ := at_, ba := iW, bo := iN, bt := bt, ga := iS, go := iE, gt := gt,
           ob := iS, og := iW, ot := ot }

/-- The matrix blocks written by `createMatrixBlocks_`. -/
structure Blocks (K : Type) where
  ag_ag : Mat K
  ga_ga : Mat K
  ag_ab : Mat K
  ga_go : Mat K
  bo_bo : Mat K
  ob_ob : Mat K
  bo_ba : Mat K
  ob_og : Mat K
  ab_ag : Mat K
  ba_bo : Mat K
  ab_ab : Mat K
  ba_ba : Mat K
  go_ga : Mat K
  og_ob : Mat K
  go_go : Mat K
  og_og : Mat K
  ag_at : Mat K
  ga_gt : Mat K
  bo_bt : Mat K
  ob_ot : Mat K
  ab_at : Mat K
  ba_bt : Mat K
  go_gt : Mat K
  og_ot : Mat K
  at_at : Mat K
  bt_bt : Mat K
  gt_gt : Mat K
  ot_ot : Mat K
  at_ag : Mat K
  at_ab : Mat K
  bt_bo : Mat K
  bt_ba : Mat K
  gt_ga : Mat K
  gt_go : Mat K
  ot_ob : Mat K
  ot_og : Mat K

/-- `createMatrixBlocks_`.  HPSAlgorithm.hpp:799-859. -/
def createMatrixBlocks (I : IndexSets) (F : Fam (Patch K)) : Res (Blocks K) := do
  let Ta := F.a.T
  let Tb := F.b.T
  let Tg := F.c.T
  let To := F.d.T
  let ag_ag ← Ta.getFromIndexSet I.ag I.ag
  let ga_ga ← Tg.getFromIndexSet I.ga I.ga
  let ag_ab ← Ta.getFromIndexSet I.ag I.ab
  let ga_go ← Tg.getFromIndexSet I.ga I.go
  let bo_bo ← Tb.getFromIndexSet I.bo I.bo
  let ob_ob ← To.getFromIndexSet I.ob I.ob
  let bo_ba ← Tb.getFromIndexSet I.bo I.ba
  let ob_og ← To.getFromIndexSet I.ob I.og
  let ab_ag ← Ta.getFromIndexSet I.ab I.ag
  let ba_bo ← Tb.getFromIndexSet I.ba I.bo
  let ab_ab ← Ta.getFromIndexSet I.ab I.ab
  let ba_ba ← Tb.getFromIndexSet I.ba I.ba
  let go_ga ← Tg.getFromIndexSet I.go I.ga
  let og_ob ← To.getFromIndexSet I.og I.ob
  let go_go ← Tg.getFromIndexSet I.go I.go
  let og_og ← To.getFromIndexSet I.og I.og
  let ag_at ← Ta.getFromIndexSet I.ag I.at_
  let ga_gt ← Tg.getFromIndexSet I.ga I.gt
  let bo_bt ← Tb.getFromIndexSet I.bo I.bt
  let ob_ot ← To.getFromIndexSet I.ob I.ot
  let ab_at ← Ta.getFromIndexSet I.ab I.at_
  let ba_bt ← Tb.getFromIndexSet I.ba I.bt
  let go_gt ← Tg.getFromIndexSet I.go I.gt
  let og_ot ← To.getFromIndexSet I.og I.ot
  let at_at ← Ta.getFromIndexSet I.at_ I.at_
  let bt_bt ← Tb.getFromIndexSet I.bt I.bt
  let gt_gt ← Tg.getFromIndexSet I.gt I.gt
  let ot_ot ← To.getFromIndexSet I.ot I.ot
  let at_ag ← Ta.getFromIndexSet I.at_ I.ag
  let at_ab ← Ta.getFromIndexSet I.at_ I.ab
  let bt_bo ← Tb.getFromIndexSet I.bt I.bo
  let bt_ba ← Tb.getFromIndexSet I.bt I.ba
  let gt_ga ← Tg.getFromIndexSet I.gt I.ga
  let gt_go ← Tg.getFromIndexSet I.gt I.go
  let ot_ob ← To.getFromIndexSet I.ot I.ob
  let ot_og ← To.getFromIndexSet I.ot I.og
  let ga_go ← ga_go.neg
  let ob_og ← ob_og.neg
  let ba_bo ← ba_bo.neg
  let og_ob ← og_ob.neg
  let ag_at ← ag_at.neg
  let bo_bt ← bo_bt.neg
  let ab_at ← ab_at.neg
  let go_gt ← go_gt.neg
  pure { ag_ag, ga_ga, ag_ab, ga_go, bo_bo, ob_ob, bo_ba, ob_og, ab_ag, ba_bo, ab_ab, ba_ba, go_ga, og_ob,
         go_go, og_og, ag_at, ga_gt, bo_bt, ob_ot, ab_at, ba_bt, go_gt, og_ot, at_at, bt_bt, gt_gt, ot_ot,
         at_ag, at_ab, bt_bo, bt_ba, gt_ga, gt_go, ot_ob, ot_og }

/-- `mergeX_`: the new `tau.matrixX()`.  HPSAlgorithm.hpp:870-895. -/
def mergeX (B : Blocks K) : Res (Mat K) := do
  let d1 ← B.ag_ag.sub B.ga_ga
  let d2 ← B.bo_bo.sub B.ob_ob
  let d3 ← B.ab_ab.sub B.ba_ba
  let d4 ← B.go_go.sub B.og_og
  let r1 := d1.nrows
  let r2 := d1.nrows + d2.nrows
  let r3 := d1.nrows + d2.nrows + d3.nrows
  let c1 := d1.ncols
  let c2 := d1.ncols + d2.ncols
  let c3 := d1.ncols + d2.ncols + d3.ncols
  let X ← Mat.blockDiagonal [d1, d2, d3, d4]
  let X ← X.setBlock 0 c2 B.ag_ab
  let X ← X.setBlock 0 c3 B.ga_go
  let X ← X.setBlock r1 c2 B.bo_ba
  let X ← X.setBlock r1 c3 B.ob_og
  let X ← X.setBlock r2 0 B.ab_ag
  let X ← X.setBlock r2 c1 B.ba_bo
  let X ← X.setBlock r3 0 B.go_ga
  X.setBlock r3 c1 B.og_ob

/-- `mergeS_`: the new `tau.matrixS()` (in child order).  HPSAlgorithm.hpp:906-929. -/
def mergeS (lap : Lapack K) (B : Blocks K) (X : Mat K) : Res (Mat K) := do
  let nrows := B.ag_at.nrows + B.bo_bt.nrows + B.ab_at.nrows + B.go_gt.nrows
  let ncols := B.ag_at.ncols + B.bo_bt.ncols + B.ga_gt.ncols + B.ob_ot.ncols
  let r1 := B.ag_at.nrows
  let r2 := B.ag_at.nrows + B.bo_bt.nrows
  let r3 := B.ag_at.nrows + B.bo_bt.nrows + B.ab_at.nrows
  let c1 := B.ag_at.ncols
  let c2 := B.ag_at.ncols + B.bo_bt.ncols
  let c3 := B.ag_at.ncols + B.bo_bt.ncols + B.ga_gt.ncols
  let R : Mat K := Mat.fill nrows ncols 0
  let R ← R.setBlock 0 0 B.ag_at
  let R ← R.setBlock 0 c2 B.ga_gt
  let R ← R.setBlock r1 c1 B.bo_bt
  let R ← R.setBlock r1 c3 B.ob_ot
  let R ← R.setBlock r2 0 B.ab_at
  let R ← R.setBlock r2 c1 B.ba_bt
  let R ← R.setBlock r3 c2 B.go_gt
  let R ← R.setBlock r3 c3 B.og_ot
  Mat.solveMat lap X R

/-- `mergeT_`: the new `tau.matrixH()` and `tau.matrixT()` (in child order).
HPSAlgorithm.hpp:940-968. -/
def mergeT (B : Blocks K) (S : Mat K) : Res (Mat K × Mat K) := do
  let lhs ← Mat.blockDiagonal [B.at_at, B.bt_bt, B.gt_gt, B.ot_ot]
  let nrows := B.at_ag.nrows + B.bt_bo.nrows + B.gt_ga.nrows + B.ot_ob.nrows
  let ncols := B.at_ag.ncols + B.bt_bo.ncols + B.at_ab.ncols + B.gt_go.ncols
  let r1 := B.at_ag.nrows
  let r2 := B.at_ag.nrows + B.bt_bo.nrows
  let r3 := B.at_ag.nrows + B.bt_bo.nrows + B.gt_ga.nrows
  let c1 := B.at_ag.ncols
  let c2 := B.at_ag.ncols + B.bt_bo.ncols
  let c3 := B.at_ag.ncols + B.bt_bo.ncols + B.at_ab.ncols
  let H : Mat K := Mat.fill nrows ncols 0
  let H ← H.setBlock 0 0 B.at_ag
  let H ← H.setBlock 0 c2 B.at_ab
  let H ← H.setBlock r1 c1 B.bt_bo
  let H ← H.setBlock r1 c2 B.bt_ba
  let H ← H.setBlock r2 0 B.gt_ga
  let H ← H.setBlock r2 c3 B.gt_go
  let H ← H.setBlock r3 c1 B.ot_ob
  let H ← H.setBlock r3 c3 B.ot_og
  let rhs ← H.mul S
  let T ← lhs.add rhs
  pure (H, T)

/-- `pi_noChange`.  HPSAlgorithm.hpp:983. -/
def piNoChange : Vec Int := Vec.ofList [0, 1, 2, 3]

/-- `pi_WESN`.  HPSAlgorithm.hpp:984, 1145. -/
def piWESN : Vec Int := Vec.ofList [0, 4, 2, 6, 1, 3, 5, 7]

/-- `reorderOperators_`: the permuted `S` and `T`.  HPSAlgorithm.hpp:979-993. -/
def reorderOperators (nside : Nat) (S T : Mat K) : Res (Mat K × Mat K) := do
  let b1 : Vec Int := Vec.fill 4 (nside : Int)
  let b2 : Vec Int := Vec.fill 8 (nside : Int)
  let S ← S.blockPermute piNoChange piWESN b1 b2
  let T ← T.blockPermute piWESN piWESN b2 b2
  pure (S, T)

/-- `mergePatch_`: the merged grid.  HPSAlgorithm.hpp:1004-1009. -/
def mergeGrid (F : Fam (Patch K)) : Grid K :=
  { nx := F.a.size + F.b.size, xl := F.a.grid.xl, xu := F.b.grid.xu,
    ny := F.a.size + F.c.size, yl := F.a.grid.yl, yu := F.c.grid.yu }

/-- `merge4to1`.  HPSAlgorithm.hpp:497-518. -/
def merge4to1 (lap : Lapack K) (F : Fam (Patch K)) : Res (Fam (Patch K)) := do
  let F ← coarsen F
  let I ← createIndexSets F
  let B ← createMatrixBlocks I F
  let X ← mergeX B
  let S ← mergeS lap B X
  let HT ← mergeT B S
  let ST ← reorderOperators (F.a.T.nrows / 4) S HT.2
  pure { F with tau := { F.tau with X := X, H := HT.1, S := ST.1, T := ST.2, grid := mergeGrid F } }

/-- One pass of the inner loop of `coarsenUpwards_`.  HPSAlgorithm.hpp:1034-1043. -/
def coarsenUpStep (n : Nat) (p : Patch K) : Res (Patch K) := do
  let nfine := p.grid.nx / 2 ^ n
  let ncoarse := nfine / 2
  let l21 ← Mat.fine2coarse ncoarse
  let L21 ← diag4 l21
  let h ← L21.mulVec p.h
  pure { p with h := h }

/-- The inner loop of `coarsenUpwards_` for one patch.  HPSAlgorithm.hpp:1033-1044. -/
def coarsenUpPatch (p : Patch K) : Res (Patch K) := forN p.nCoarsens coarsenUpStep p

/-- `coarsenUpwards_`.  HPSAlgorithm.hpp:1024-1048. -/
def coarsenUp (F : Fam (Patch K)) : Res (Fam (Patch K)) := do
  let a ← coarsenUpPatch F.a
  let b ← coarsenUpPatch F.b
  let c ← coarsenUpPatch F.c
  let d ← coarsenUpPatch F.d
  pure ⟨F.tau, a, b, c, d⟩

/-- `mergeW_`: the new `tau.vectorW()`.  HPSAlgorithm.hpp:1059-1087. -/
def mergeW (lap : Lapack K) (I : IndexSets) (F : Fam (Patch K)) (X : Mat K) : Res (Vec K) := do
  let h_ga ← F.c.h.callIndexSet I.ga
  let h_ag ← F.a.h.callIndexSet I.ag
  let h_ob ← F.d.h.callIndexSet I.ob
  let h_bo ← F.b.h.callIndexSet I.bo
  let h_ba ← F.b.h.callIndexSet I.ba
  let h_ab ← F.a.h.callIndexSet I.ab
  let h_og ← F.d.h.callIndexSet I.og
  let h_go ← F.c.h.callIndexSet I.go
  let d1 ← h_ga.sub h_ag
  let d2 ← h_ob.sub h_bo
  let d3 ← h_ba.sub h_ab
  let d4 ← h_og.sub h_go
  let hDiff ← Vec.concatenate [d1, d2, d3, d4]
  Mat.solveVec lap X hDiff

/-- `mergeH_`: the new `tau.vectorH()` (in child order).  HPSAlgorithm.hpp:1098-1117. -/
def mergeH (I : IndexSets) (F : Fam (Patch K)) (w : Vec K) : Res (Vec K) := do
  let h ← F.tau.H.mulVec w
  let ha ← F.a.h.callIndexSet I.at_
  let hb ← F.b.h.callIndexSet I.bt
  let hc ← F.c.h.callIndexSet I.gt
  let hd ← F.d.h.callIndexSet I.ot
  let upd ← Vec.concatenate [ha, hb, hc, hd]
  h.addAssign upd

/-- `reorderOperatorsUpwards_`.  HPSAlgorithm.hpp:1128-1150. -/
def reorderUp (F : Fam (Patch K)) (h : Vec K) : Res (Vec K) :=
  if ¬ (F.a.size = F.b.size ∧ F.b.size = F.c.size ∧ F.c.size = F.d.size) then .throw .invalidArgument
  else
    let nside := F.a.T.nrows / 4
    h.blockPermute piWESN (Vec.fill 8 (nside : Int))

/-- `upwards4to1`.  HPSAlgorithm.hpp:529-551. -/
def upwards4to1 (lap : Lapack K) (opt : HPSOptions) (F : Fam (Patch K)) : Res (Fam (Patch K)) :=
  if opt.homogeneousRhs then pure F
  else do
    let F ← coarsenUp F
    let I ← createIndexSets F
    let B ← createMatrixBlocks I F
    let X ← mergeX B
    let w ← mergeW lap I F X
    let h ← mergeH I F w
    let h ← reorderUp F h
    pure { F with tau := { F.tau with X := X, w := w, h := h } }

/-- One pass of the loop of `uncoarsen_`.  HPSAlgorithm.hpp:1170-1180. -/
def uncoarsenStep (n : Nat) (p : Patch K) : Res (Patch K) := do
  let nfine := p.grid.nx / 2 ^ (p.nCoarsens - (n + 1))
  let l12 ← Mat.coarse2fine nfine
  let L12 ← diag4 l12
  let g ← L12.mulVec p.g
  pure { p with g := g }

/-- `uncoarsen_`.  HPSAlgorithm.hpp:1165-1183. -/
def uncoarsen (p : Patch K) : Res (Patch K) := forN p.nCoarsens uncoarsenStep p

/-- `u_tau` of `applyS_`.  HPSAlgorithm.hpp:1194-1205. -/
def interfaceU (opt : HPSOptions) (tau : Patch K) : Res (Vec K) := do
  let u ← tau.S.mulVec tau.g
  if opt.homogeneousRhs then pure u else u.add tau.w

/-- `applyS_`.  HPSAlgorithm.hpp:1194-1230. -/
def applyS (opt : HPSOptions) (F : Fam (Patch K)) : Res (Fam (Patch K)) := do
  let u ← interfaceU opt F.tau
  let n := F.a.size
  let g_ag ← u.getSegment (0 * n) n
  let g_bo ← u.getSegment (1 * n) n
  let g_ab ← u.getSegment (2 * n) n
  let g_go ← u.getSegment (3 * n) n
  let g_aW ← F.tau.g.getSegment (0 * n) n
  let g_cW ← F.tau.g.getSegment (1 * n) n
  let g_bE ← F.tau.g.getSegment (2 * n) n
  let g_dE ← F.tau.g.getSegment (3 * n) n
  let g_aS ← F.tau.g.getSegment (4 * n) n
  let g_bS ← F.tau.g.getSegment (5 * n) n
  let g_cN ← F.tau.g.getSegment (6 * n) n
  let g_dN ← F.tau.g.getSegment (7 * n) n
  let ga ← Vec.concatenate [g_aW, g_ab, g_aS, g_ag]
  let gb ← Vec.concatenate [g_ab, g_bE, g_bS, g_bo]
  let gc ← Vec.concatenate [g_cW, g_go, g_ag, g_cN]
  let gd ← Vec.concatenate [g_go, g_dE, g_bo, g_dN]
  pure ⟨F.tau, { F.a with g := ga }, { F.b with g := gb }, { F.c with g := gc }, { F.d with g := gd }⟩

/-- `split1to4`.  HPSAlgorithm.hpp:562-577. -/
def split1to4 (opt : HPSOptions) (F : Fam (Patch K)) : Res (Fam (Patch K)) := do
  let tau ← uncoarsen F.tau
  applyS opt { F with tau := tau }

/-- `leafSolve`.  HPSAlgorithm.hpp:584-596. -/
def leafSolve (ps : PatchSolver K) (opt : HPSOptions) (p : Patch K) : Res (Patch K) := do
  let p := if opt.homogeneousRhs then { p with f := Vec.fill (p.grid.nx * p.grid.ny) 0 } else p
  let u ← ps.solve p.grid p.g p.f
  pure { p with u := u }

end HPS

/-! ## The tree and its traversals -/

/-- The nodes of the quadtree with their data.  Quadtree.hpp: `map`, `Node<PatchType>`. -/
inductive Tree (P : Type) where
  | leaf (p : P)
  | node (p : P) (c0 c1 c2 c3 : Tree P)

namespace Tree

variable {P Q σ : Type}

/-- The data stored at the root of a subtree. -/
def val : Tree P → P
  | leaf p => p
  | node p _ _ _ _ => p

/-- Replace the data stored at the root of a subtree. -/
def setVal (q : P) : Tree P → Tree P
  | leaf _ => leaf q
  | node _ c0 c1 c2 c3 => node q c0 c1 c2 c3

/-- `Quadtree::merge`: post-order; the leaf callback at leaves, the family callback at branches after
the four children (in z-order).  `σ` is the state the callbacks share.
Quadtree.hpp:318-336, 438-511 (serial case). -/
def mergeSt (leafF : P → σ → Res (P × σ)) (famF : Fam P → Res (Fam P)) : Tree P → σ → Res (Tree P × σ)
  | leaf p, s => do
    let r ← leafF p s
    pure (leaf r.1, r.2)
  | node p c0 c1 c2 c3, s => do
    let r0 ← mergeSt leafF famF c0 s
    let r1 ← mergeSt leafF famF c1 r0.2
    let r2 ← mergeSt leafF famF c2 r1.2
    let r3 ← mergeSt leafF famF c3 r2.2
    let F ← famF ⟨p, r0.1.val, r1.1.val, r2.1.val, r3.1.val⟩
    pure (node F.tau (r0.1.setVal F.a) (r1.1.setVal F.b) (r2.1.setVal F.c) (r3.1.setVal F.d), r3.2)

/-- `Quadtree::merge` with callbacks that share no state.  Quadtree.hpp:318-336, 438-511. -/
def merge (leafF : P → Res P) (famF : Fam P → Res (Fam P)) : Tree P → Res (Tree P)
  | leaf p => do
    let q ← leafF p
    pure (leaf q)
  | node p c0 c1 c2 c3 => do
    let t0 ← merge leafF famF c0
    let t1 ← merge leafF famF c1
    let t2 ← merge leafF famF c2
    let t3 ← merge leafF famF c3
    let F ← famF ⟨p, t0.val, t1.val, t2.val, t3.val⟩
    pure (node F.tau (t0.setVal F.a) (t1.setVal F.b) (t2.setVal F.c) (t3.setVal F.d))

/-- `Quadtree::split`: pre-order; the family callback at branches before the children, the leaf
callback at leaves.  The second argument is the current data of the root of the subtree.
Quadtree.hpp:343-361, 438-511 (serial case). -/
def splitFrom (leafF : P → Res P) (famF : Fam P → Res (Fam P)) : Tree P → P → Res (Tree P)
  | leaf _, p => do
    let q ← leafF p
    pure (leaf q)
  | node _ c0 c1 c2 c3, p => do
    let F ← famF ⟨p, c0.val, c1.val, c2.val, c3.val⟩
    let t0 ← splitFrom leafF famF c0 F.a
    let t1 ← splitFrom leafF famF c1 F.b
    let t2 ← splitFrom leafF famF c2 F.c
    let t3 ← splitFrom leafF famF c3 F.d
    pure (node F.tau t0 t1 t2 t3)

/-- `Quadtree::split`. -/
def split (leafF : P → Res P) (famF : Fam P → Res (Fam P)) (t : Tree P) : Res (Tree P) :=
  splitFrom leafF famF t t.val

end Tree

namespace HPS

variable [Field K]

/-- Leaf callback of `buildStage`; the state is `matrixCache["T_leaf"]`.
HPSAlgorithm.hpp:129-143. -/
def buildLeaf (ps : PatchSolver K) (opt : HPSOptions) (p : Patch K) (cache : Option (Mat K)) :
    Res (Patch K × Option (Mat K)) :=
  if opt.cacheOperators then
    match cache with
    | some T => pure ({ p with T := T }, some T)
    | none => do
      let T ← ps.buildD2N p.grid
      pure ({ p with T := T }, some T)
  else do
    let T ← ps.buildD2N p.grid
    pure ({ p with T := T }, cache)

/-- `buildStage()`.  HPSAlgorithm.hpp:120-161. -/
def buildStage (lap : Lapack K) (ps : PatchSolver K) (opt : HPSOptions) (t : Tree (Patch K))
    (cache : Option (Mat K)) : Res (Tree (Patch K) × Option (Mat K)) :=
  t.mergeSt (buildLeaf ps opt) (merge4to1 lap) cache

/-- Leaf callback of `upwardsStage(rhs_patch_function)`.  HPSAlgorithm.hpp:187-198. -/
def upwardsLeaf (ps : PatchSolver K) (rhs : Patch K → Res (Patch K)) (p : Patch K) : Res (Patch K) := do
  let p ← rhs p
  let h ← ps.particularNeumannData p.grid p.f
  pure { p with h := h }

/-- `upwardsStage(rhs_patch_function)`.  HPSAlgorithm.hpp:178-216. -/
def upwardsStage (lap : Lapack K) (ps : PatchSolver K) (opt : HPSOptions)
    (rhs : Patch K → Res (Patch K)) (t : Tree (Patch K)) : Res (Tree (Patch K)) :=
  t.merge (upwardsLeaf ps rhs) (upwards4to1 lap opt)

/-- `solveStage(boundary_data_function)`.  HPSAlgorithm.hpp:291-324. -/
def solveStage (ps : PatchSolver K) (opt : HPSOptions) (bdry : Patch K → Res (Patch K))
    (t : Tree (Patch K)) : Res (Tree (Patch K)) := do
  let r ← bdry t.val
  t.splitFrom (leafSolve ps opt) (split1to4 opt) r

end HPS
end EF

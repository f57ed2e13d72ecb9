import Verif.Proofs.Linear
import Verif.Props.Stages
import Mathlib.Tactic.NormNum
import Mathlib.Algebra.Order.Field.Rat

/-!
# A singular interface system of an elliptic problem on an adaptive mesh

The mesh is the unit square with its lower left quarter refined once, three cells per patch side.  `beta` is one except at three
face centres.  `sgW` is a vector of interface values for which all fluxes match: it is in the kernel of the interface system of
the root.  `sgU0`, …, `sgU3` are the cell values of the discrete solutions on the four quarters with these interface values
and zero on the boundary of the square.
-/

namespace EF
namespace HPS

open Finset FV

/-- The value of `beta` at the midpoint of the interface between the lower quarters. -/
def sgC : ℚ := 3094800639616274009173757136561264599 / 99949712570697404145074661278532743

/-- `beta` is one except at three face centres. -/
def sgBeta (x y : ℚ) : ℚ :=
  if x = 11 / 24 ∧ y = 1 / 4 then 100 else if x = 1 / 2 ∧ y = 7 / 24 then 100 else if x = 1 / 2 ∧ y = 1 / 4 then sgC else 1

/-- The problem. -/
def sgPde : FVSolver ℚ := ⟨fun _ _ => 1, sgBeta, fun _ _ => 0⟩

/-- The lower left quarter is refined once. -/
def sgShape : Tree Unit := .node () (.node () (.leaf ()) (.leaf ()) (.leaf ()) (.leaf ())) (.leaf ()) (.leaf ()) (.leaf ())

/-- Values on the four interfaces, three per interface. -/
def sgWs : List ℚ := [
  24683683297682482382525066032971010282, 75392379015036518584426437517423695270, 116589866079277820118748084001942755394,
  155832032166955149681946321709447009042, 92847524629271695994780931360579329750, 29852151344675935997448765093084953434,
  135883970401062664330766048363247299126, 396785574833216936720532175222984232490, 216356617051349166011647597431693625918,
  96107122269537233532391896408338941486, 48087519597578494456710376122319617370, 14614301309092107804434116317208238918]

/-- Cell values on the refined quarter, six by six. -/
def sgU0 : List ℚ := [
  3018654421458864494877362178925199427, 8574427958680308676762760184940821390, 12683662502813041329456242518460817507,
  14661172703469833073122239213253586977, 14505659797883622646463441637441161730, 12630642378089797525730600559859952593,
  9537498570072878292501412888610375172, 27169822869129637559480196227318090016, 40182711851915064897396213194109679168,
  46116541216652501389691511910365955648, 45236483907858482633464368414092269080, 40237428438064945427439379460482133528,
  17499015559775889408149506036808586417, 50384653095850298371260398641611484334, 74760820819065079310956902120293853501,
  84385796403366624954783226820008287367, 80086306178832861070263140648079825414, 68598301450334464112001110520290082909,
  27572926132956270376985718653821072579, 82108953135430587206454990182025407402, 124090121925128329020387769825445963135,
  136579517398916058048221352601293514905, 122124642953771872580803856837928662300, 97237362463378494994400843200267407557,
  38256661969574875270324097050271369076, 126388111387787451057186073607223109560, 202911196347101591515917834398171076732,
  215717508313397405636910556921791146818, 174595385773960076210330090902073901324, 124080366350592450343185550366011371974,
  37322272327130654917448692990312663241, 182275634099042750236047372798424585030, 345449043762093180349186937238224087415,
  348783933733611896773172949785626094311, 236459025478078576280420399482564424204, 135988094889188691040861472966089570263]

/-- Cell values on the lower right quarter. -/
def sgU1 : List ℚ := [
  119096104431073643604637906699281595992, 385791106450440222264573962482345630760, 207664830440839286479496747244703830172,
  57017579333876310701721380986849346940, 149756243763827454691360663459573254336, 115820577757986865225218682703596080352,
  16235548474480455212608334775391884372, 40395711513006420573928627665501959292, 35986765326724192965674140092544657752]

/-- Cell values on the upper left quarter. -/
def sgU2 : List ℚ := [
  19696852724843839402595886047331315840, 10850078785579658670542756636315685348, 3431807763382719802042416950262566700,
  57963670968118412979982427581730189128, 31121733439671734148075480183984544200, 9740767794716660141711745065259714852,
  88215010646003454180387896642487695060, 45932416210272204800064991452632587472, 14150297770528846758440828192051463360]

/-- Cell values on the upper right quarter. -/
def sgU3 : List ℚ := [
  103999233893071012884395896174190187912, 50242622984884784113355760792006647268, 15078304847655368850427404442365014476,
  69874471500556526764343180017562579148, 35960536988540549918534751098838799212, 10998603482863213380340433227766961752,
  23717537362627679029223390093625249116, 12726449985857675416099630358019008680, 3954175578120148132740010597630995072]

/-- Interface values. -/
def sgW (r i : Nat) : ℚ := sgWs.getD (r * 3 + i) 0

/-- A list as a cell function. -/
def cellFn (n : Nat) (l : List ℚ) (i j : Nat) : ℚ := l.getD (j + n * i) 0

/-- No values on the outer boundary. -/
def zeroB : Nat → Nat → ℚ := fun _ _ => 0

instance (c : FVSolver ℚ) (R : Rect ℚ) (nx ny : Nat) (b : Bdry ℚ) (f u : Nat → Nat → ℚ) : Decidable (Solves c R nx ny b f u) := by
  unfold Solves; infer_instance

theorem sg_solves0 : Solves sgPde (unitSquare.quarter 0) 6 6 (ofB (proN 1 3 (cd 0 zeroB sgW))) zeroB (cellFn 6 sgU0) := by
  decide +kernel
theorem sg_solves1 : Solves sgPde (unitSquare.quarter 1) 3 3 (ofB (cd 1 zeroB sgW)) zeroB (cellFn 3 sgU1) := by decide +kernel
theorem sg_solves2 : Solves sgPde (unitSquare.quarter 2) 3 3 (ofB (cd 2 zeroB sgW)) zeroB (cellFn 3 sgU2) := by decide +kernel
theorem sg_solves3 : Solves sgPde (unitSquare.quarter 3) 3 3 (ofB (cd 3 zeroB sgW)) zeroB (cellFn 3 sgU3) := by decide +kernel

/-- The fluxes of the four solutions, the refined one averaged over pairs of cells. -/
def sgFlux (c p i : Nat) : ℚ :=
  match c with
  | 0 => meanOver 2 (deriv (unitSquare.quarter 0) 6 6 (ofB (proN 1 3 (cd 0 zeroB sgW))) (cellFn 6 sgU0) p) i
  | 1 => deriv (unitSquare.quarter 1) 3 3 (ofB (cd 1 zeroB sgW)) (cellFn 3 sgU1) p i
  | 2 => deriv (unitSquare.quarter 2) 3 3 (ofB (cd 2 zeroB sgW)) (cellFn 3 sgU2) p i
  | _ => deriv (unitSquare.quarter 3) 3 3 (ofB (cd 3 zeroB sgW)) (cellFn 3 sgU3) p i

theorem sg_flux : ∀ r, r < 4 → ∀ i, i < 3 → sgFlux (jl r).1 (jl r).2 i = sgFlux (jr r).1 (jr r).2 i := by decide +kernel

theorem sg_elliptic : EllipticOn sgPde unitSquare := by
  intro x y _
  refine ⟨?_, one_ne_zero, by simp [sgPde]⟩
  show 0 < sgBeta x y
  unfold sgBeta sgC
  split_ifs <;> norm_num

/-- The interface system of the root is singular. -/
theorem sg_core {T0 T1 T2 T3 : Blk ℚ} (h0 : TrueOp sgPde (unitSquare.quarter 0) 6 T0 (fun _ _ => 0) (fun _ _ => 0))
    (h1 : TrueOp sgPde (unitSquare.quarter 1) 3 T1 (fun _ _ => 0) (fun _ _ => 0))
    (h2 : TrueOp sgPde (unitSquare.quarter 2) 3 T2 (fun _ _ => 0) (fun _ _ => 0))
    (h3 : TrueOp sgPde (unitSquare.quarter 3) 3 T3 (fun _ _ => 0) (fun _ _ => 0)) :
    ¬ BNonsing 3 4 (Xf (ops4 3 1 0 0 0 T0 T1 T2 T3)) := by
  intro hn
  have e0 : ∀ p, p < 4 → ∀ i, i < 3 → sgFlux 0 p i = fl 3 (ops4 3 1 0 0 0 T0 T1 T2 T3 0) (cd 0 zeroB sgW) p i := by
    intro p hp i hi
    have := coarse_flux (n := 3) (k := 1) (by omega) (T := T0) (g := cd 0 zeroB sgW) (h := fun _ _ => 0)
      (y := deriv (unitSquare.quarter 0) 6 6 (ofB (proN 1 3 (cd 0 zeroB sgW))) (cellFn 6 sgU0))
      (fun s hs j hj => h0 _ _ sg_solves0 s hs j hj) hp hi
    have z : rstN 1 3 (fun _ _ => (0 : ℚ)) p i = 0 := by simp [rstN, rst]
    rw [z, add_zero] at this
    exact this
  have e' : ∀ {T : Blk ℚ} {R : Rect ℚ} {b U : Nat → Nat → ℚ}, TrueOp sgPde R 3 T (fun _ _ => 0) (fun _ _ => 0) →
      Solves sgPde R 3 3 (ofB b) zeroB U → ∀ p, p < 4 → ∀ i, i < 3 → deriv R 3 3 (ofB b) U p i = fl 3 T b p i := by
    intro T R b U hT hU p hp i hi
    rw [hT _ _ hU p hp i hi]
    unfold opFlux
    rw [add_zero]
    rfl
  have e : ∀ c, c < 4 → ∀ p, p < 4 → ∀ i, i < 3 → sgFlux c p i = fl 3 (ops4 3 1 0 0 0 T0 T1 T2 T3 c) (cd c zeroB sgW) p i := by
    intro c hc
    interval_cases c
    · exact e0
    · exact e' h1 sg_solves1
    · exact e' h2 sg_solves2
    · exact e' h3 sg_solves3
  have := hn sgW (by
    intro r hr i hi
    have h := jump_eq 3 (ops4 3 1 0 0 0 T0 T1 T2 T3) zeroB sgW r hr i
    have hz : jump 3 (ops4 3 1 0 0 0 T0 T1 T2 T3) zeroB sgW r i = 0 := by
      have hl : (jl r).1 < 4 ∧ (jl r).2 < 4 ∧ (jr r).1 < 4 ∧ (jr r).2 < 4 := by interval_cases r <;> decide
      unfold jump cfl
      rw [← e _ hl.1 _ hl.2.1 i hi, ← e _ hl.2.2.1 _ hl.2.2.2 i hi, sg_flux r hr i hi, sub_self]
    rw [hz] at h
    simp only [zeroB, mul_zero, sum_const_zero, sub_zero] at h
    exact h.symm) 0 (by omega) 0 (by omega)
  revert this
  decide +kernel

end HPS
end EF

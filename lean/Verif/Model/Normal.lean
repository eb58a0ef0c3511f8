import Mathlib.Analysis.SpecialFunctions.Exp
import Mathlib.Analysis.SpecialFunctions.Sqrt
import Mathlib.Analysis.Real.Pi.Bounds
import Verif.Base.Panic
/-!
# The normal distribution function and the collision probability (`src/stats/`, `src/index.rs:146-155`)

Exact arithmetic: `f64` is `ℝ`, and the decimal constants have the value they are written with. `is_nan` and `is_infinite` of
the arguments are therefore never true; the infinite arguments that arise in `collision_probability_at` are treated there.
`erf_inv`, `erfc_inv` and `erf_inv_impl` (`src/stats/erf.rs:24-37, 53-68, 690-`) are not used by the project and not modelled.
-/

namespace Attimo

/-- `evaluate::polynomial` (`src/stats/evaluate.rs:13-24`): Horner's scheme from the last coefficient -/
noncomputable def polynomial (z : ℝ) (coeff : List ℝ) : ℝ :=
  match coeff.getLast? with
  | none => 0
  | some last => coeff.dropLast.reverse.foldl (fun sum c => c + z * sum) last

/-- `ERF_IMPL_AN` (`src/stats/erf.rs:72-81`) -/
def ERF_AN : List ℚ := [
  0.00337916709551257388990745, -0.00073695653048167948530905, -0.374732337392919607868241, 0.0817442448733587196071743,
  -0.0421089319936548595203468, 0.0070165709512095756344528, -0.00495091255982435110337458, 0.000871646599037922480317225]

/-- `ERF_IMPL_AD` (`src/stats/erf.rs:85-94`) -/
def ERF_AD : List ℚ := [
  1.0, -0.218088218087924645390535, 0.412542972725442099083918, -0.0841891147873106755410271, 0.0655338856400241519690695,
  -0.0120019604454941768171266, 0.00408165558926174048329689, -0.000615900721557769691924509]

/-- `ERF_IMPL_BN` (`src/stats/erf.rs:98-105`) -/
def ERF_BN : List ℚ := [
  -0.0361790390718262471360258, 0.292251883444882683221149, 0.281447041797604512774415, 0.125610208862766947294894,
  0.0274135028268930549240776, 0.00250839672168065762786937]

/-- `ERF_IMPL_BD` (`src/stats/erf.rs:109-116`) -/
def ERF_BD : List ℚ := [
  1.0, 1.8545005897903486499845, 1.43575803037831418074962, 0.582827658753036572454135, 0.124810476932949746447682,
  0.0113724176546353285778481]

/-- `ERF_IMPL_CN` (`src/stats/erf.rs:120-128`) -/
def ERF_CN : List ℚ := [
  -0.0397876892611136856954425, 0.153165212467878293257683, 0.191260295600936245503129, 0.10276327061989304213645,
  0.029637090615738836726027, 0.0046093486780275489468812, 0.000307607820348680180548455]

/-- `ERF_IMPL_CD` (`src/stats/erf.rs:132-140`) -/
def ERF_CD : List ℚ := [
  1.0, 1.95520072987627704987886, 1.64762317199384860109595, 0.768238607022126250082483, 0.209793185936509782784315,
  0.0319569316899913392596356, 0.00213363160895785378615014]

/-- `ERF_IMPL_DN` (`src/stats/erf.rs:144-152`) -/
def ERF_DN : List ℚ := [
  -0.0300838560557949717328341, 0.0538578829844454508530552, 0.0726211541651914182692959, 0.0367628469888049348429018,
  0.00964629015572527529605267, 0.00133453480075291076745275, 0.778087599782504251917881e-4]

/-- `ERF_IMPL_DD` (`src/stats/erf.rs:156-165`) -/
def ERF_DD : List ℚ := [
  1.0, 1.75967098147167528287343, 1.32883571437961120556307, 0.552528596508757581287907, 0.133793056941332861912279,
  0.0179509645176280768640766, 0.00104712440019937356634038, -0.106640381820357337177643e-7]

/-- `ERF_IMPL_EN` (`src/stats/erf.rs:169-177`) -/
def ERF_EN : List ℚ := [
  -0.0117907570137227847827732, 0.014262132090538809896674, 0.0202234435902960820020765, 0.00930668299990432009042239,
  0.00213357802422065994322516, 0.00025022987386460102395382, 0.120534912219588189822126e-4]

/-- `ERF_IMPL_ED` (`src/stats/erf.rs:181-189`) -/
def ERF_ED : List ℚ := [
  1.0, 1.50376225203620482047419, 0.965397786204462896346934, 0.339265230476796681555511, 0.0689740649541569716897427,
  0.00771060262491768307365526, 0.000371421101531069302990367]

/-- `ERF_IMPL_FN` (`src/stats/erf.rs:193-201`) -/
def ERF_FN : List ℚ := [
  -0.00546954795538729307482955, 0.00404190278731707110245394, 0.0054963369553161170521356, 0.00212616472603945399437862,
  0.000394984014495083900689956, 0.365565477064442377259271e-4, 0.135485897109932323253786e-5]

/-- `ERF_IMPL_FD` (`src/stats/erf.rs:205-214`) -/
def ERF_FD : List ℚ := [
  1.0, 1.21019697773630784832251, 0.620914668221143886601045, 0.173038430661142762569515, 0.0276550813773432047594539,
  0.00240625974424309709745382, 0.891811817251336577241006e-4, -0.465528836283382684461025e-11]

/-- `ERF_IMPL_GN` (`src/stats/erf.rs:218-225`) -/
def ERF_GN : List ℚ := [
  -0.00270722535905778347999196, 0.0013187563425029400461378, 0.00119925933261002333923989, 0.00027849619811344664248235,
  0.267822988218331849989363e-4, 0.923043672315028197865066e-6]

/-- `ERF_IMPL_GD` (`src/stats/erf.rs:229-237`) -/
def ERF_GD : List ℚ := [
  1.0, 0.814632808543141591118279, 0.268901665856299542168425, 0.0449877216103041118694989, 0.00381759663320248459168994,
  0.000131571897888596914350697, 0.404815359675764138445257e-11]

/-- `ERF_IMPL_HN` (`src/stats/erf.rs:241-248`) -/
def ERF_HN : List ℚ := [
  -0.00109946720691742196814323, 0.000406425442750422675169153, 0.000274499489416900707787024, 0.465293770646659383436343e-4,
  0.320955425395767463401993e-5, 0.778286018145020892261936e-7]

/-- `ERF_IMPL_HD` (`src/stats/erf.rs:252-259`) -/
def ERF_HD : List ℚ := [
  1.0, 0.588173710611846046373373, 0.139363331289409746077541, 0.0166329340417083678763028, 0.00100023921310234908642639,
  0.24254837521587225125068e-4]

/-- `ERF_IMPL_IN` (`src/stats/erf.rs:263-269`) -/
def ERF_IN : List ℚ := [
  -0.00056907993601094962855594, 0.000169498540373762264416984, 0.518472354581100890120501e-4, 0.382819312231928859704678e-5,
  0.824989931281894431781794e-7]

/-- `ERF_IMPL_ID` (`src/stats/erf.rs:273-280`) -/
def ERF_ID : List ℚ := [
  1.0, 0.339637250051139347430323, 0.043472647870310663055044, 0.00248549335224637114641629, 0.535633305337152900549536e-4,
  -0.117490944405459578783846e-12]

/-- `ERF_IMPL_JN` (`src/stats/erf.rs:284-290`) -/
def ERF_JN : List ℚ := [
  -0.000241313599483991337479091, 0.574224975202501512365975e-4, 0.115998962927383778460557e-4, 0.581762134402593739370875e-6,
  0.853971555085673614607418e-8]

/-- `ERF_IMPL_JD` (`src/stats/erf.rs:294-300`) -/
def ERF_JD : List ℚ := [
  1.0, 0.233044138299687841018015, 0.0204186940546440312625597, 0.000797185647564398289151125, 0.117019281670172327758019e-4]

/-- `ERF_IMPL_KN` (`src/stats/erf.rs:304-310`) -/
def ERF_KN : List ℚ := [
  -0.000146674699277760365803642, 0.162666552112280519955647e-4, 0.269116248509165239294897e-5, 0.979584479468091935086972e-7,
  0.101994647625723465722285e-8]

/-- `ERF_IMPL_KD` (`src/stats/erf.rs:314-320`) -/
def ERF_KD : List ℚ := [
  1.0, 0.165907812944847226546036, 0.0103361716191505884359634, 0.000286593026373868366935721, 0.298401570840900340874568e-5]

/-- `ERF_IMPL_LN` (`src/stats/erf.rs:324-330`) -/
def ERF_LN : List ℚ := [
  -0.583905797629771786720406e-4, 0.412510325105496173512992e-5, 0.431790922420250949096906e-6, 0.993365155590013193345569e-8,
  0.653480510020104699270084e-10]

/-- `ERF_IMPL_LD` (`src/stats/erf.rs:334-340`) -/
def ERF_LD : List ℚ := [
  1.0, 0.105077086072039915406159, 0.00414278428675475620830226, 0.726338754644523769144108e-4, 0.477818471047398785369849e-6]

/-- `ERF_IMPL_MN` (`src/stats/erf.rs:344-349`) -/
def ERF_MN : List ℚ := [
  -0.196457797609229579459841e-4, 0.157243887666800692441195e-5, 0.543902511192700878690335e-7, 0.317472492369117710852685e-9]

/-- `ERF_IMPL_MD` (`src/stats/erf.rs:353-359`) -/
def ERF_MD : List ℚ := [
  1.0, 0.052803989240957632204885, 0.000926876069151753290378112, 0.541011723226630257077328e-5, 0.535093845803642394908747e-15]

/-- `ERF_IMPL_NN` (`src/stats/erf.rs:363-368`) -/
def ERF_NN : List ℚ := [
  -0.789224703978722689089794e-5, 0.622088451660986955124162e-6, 0.145728445676882396797184e-7, 0.603715505542715364529243e-10]

/-- `ERF_IMPL_ND` (`src/stats/erf.rs:372-377`) -/
def ERF_ND : List ℚ := [
  1.0, 0.0375328846356293715248719, 0.000467919535974625308126054, 0.193847039275845656900547e-5]

/-- the quotient of two polynomials at `x` (as it occurs in every branch of `erf_impl`) -/
noncomputable def ratQ (num den : List ℚ) (x : ℝ) : ℝ :=
  polynomial x (num.map (fun q : ℚ => (q : ℝ))) / polynomial x (den.map (fun q : ℚ => (q : ℝ)))

/-- the choice of `(r, b)` in `erf_impl` (`src/stats/erf.rs:590-668`) -/
noncomputable def erfRB (z : ℝ) : ℝ × ℝ :=
  if z < 0.75 then (ratQ ERF_BN ERF_BD (z - 0.5), 0.3440242112)
  else if z < 1.25 then (ratQ ERF_CN ERF_CD (z - 0.75), 0.419990927)
  else if z < 2.25 then (ratQ ERF_DN ERF_DD (z - 1.25), 0.4898625016)
  else if z < 3.5 then (ratQ ERF_EN ERF_ED (z - 2.25), 0.5317370892)
  else if z < 5.25 then (ratQ ERF_FN ERF_FD (z - 3.5), 0.5489973426)
  else if z < 8 then (ratQ ERF_GN ERF_GD (z - 5.25), 0.5571740866)
  else if z < 11.5 then (ratQ ERF_HN ERF_HD (z - 8), 0.5609807968)
  else if z < 17 then (ratQ ERF_IN ERF_ID (z - 11.5), 0.5626493692)
  else if z < 24 then (ratQ ERF_JN ERF_JD (z - 17), 0.5634598136)
  else if z < 38 then (ratQ ERF_KN ERF_KD (z - 24), 0.5638477802)
  else if z < 60 then (ratQ ERF_LN ERF_LD (z - 38), 0.5640528202)
  else if z < 85 then (ratQ ERF_MN ERF_MD (z - 60), 0.5641309023)
  else (ratQ ERF_NN ERF_ND (z - 85), 0.5641584396)

/-- `erf_impl` for `z` that is not negative (`src/stats/erf.rs:583-684`) -/
noncomputable def erfImplPos (z : ℝ) (inv : Bool) : ℝ :=
  let result :=
    if z < 0.5 then
      if z < 1e-10 then z * 1.125 + z * 0.003379167095512573896158903121545171688
      else z * 1.125 + z * polynomial z (ERF_AN.map (fun q : ℚ => (q : ℝ))) / polynomial z (ERF_AD.map (fun q : ℚ => (q : ℝ)))
    else if z < 110 then
      let rb := erfRB z
      let g := Real.exp (-z * z) / z
      g * rb.2 + g * rb.1
    else 0
  if inv ∧ 0.5 ≤ z then result else if 0.5 ≤ z ∨ inv then 1 - result else result

/-- `erf_impl` (`src/stats/erf.rs:572-684`). The recursive calls have a positive argument. -/
noncomputable def erfImpl (z : ℝ) (inv : Bool) : ℝ :=
  if z < 0 then
    if inv = false then -erfImplPos (-z) false
    else if z < -0.5 then 2 - erfImplPos (-z) true
    else 1 + erfImplPos (-z) false
  else erfImplPos z inv

/-- `erf` (`src/stats/erf.rs:8-20`) on finite arguments -/
noncomputable def erf (x : ℝ) : ℝ := if x = 0 then 0 else erfImpl x false

/-- `erfc` (`src/stats/erf.rs:41-51`) on finite arguments -/
noncomputable def erfc (x : ℝ) : ℝ := erfImpl x true

/-- `cdf_unchecked` (`src/stats/mod.rs:48-50`) -/
noncomputable def cdfUnchecked (x mean sd : ℝ) : ℝ := 0.5 * erfc ((mean - x) / (sd * √2))

/-- `Normal::cdf` of the `Normal::default()` (`src/stats/mod.rs:29-46`) -/
noncomputable def normalCdf (x : ℝ) : ℝ := cdfUnchecked x 0 1

/-- `Hasher::collision_probability_at` (`src/index.rs:146-155`). `none` is NaN.

For the distance zero the quotients are infinite: `cdf(-∞) = 0.5 erfc(∞) = 0`, `2 / ∞ = 0`, `exp(-∞) = 0`, so that the result is 1.
For the infinite distance `r / d` is zero: `2 / 0` is infinite and is multiplied by `1 - exp(-0) = 0`, which is NaN. -/
noncomputable def collisionProbability (width : ℝ) (d : WithTop ℝ) : Option ℝ :=
  match d with
  | none => none
  | some d =>
    if d = 0 then some 1
    else some (1 - 2 * normalCdf (-width / d) - (2 / (√(Real.pi * 2) * (width / d))) * (1 - Real.exp (-width * width / (2 * d * d))))

/-- the probability with which colliding pairs are examined (`src/motiflets.rs:505-513`): `none` is NaN, `8 / 0` is infinite.
`Bernoulli::new(p).unwrap()` panics unless `0 ≤ p ≤ 1`. -/
noncomputable def samplingProbability (pThreshold : Option ℝ) (reps : Nat) : R ℝ :=
  let p := match pThreshold with
    | none => 1
    | some p => if p * reps = 0 then 1 else min (8 / (p * reps)) 1
  if 0 ≤ p ∧ p ≤ 1 then .ok p else .error .unwrapNone

end Attimo

import Mathlib.Analysis.SpecialFunctions.Exp
import Mathlib.Analysis.SpecialFunctions.Sqrt

/-!
# Upper tail of the normal distribution (`src/stats_utils/normal.rs`)

Real arithmetic with an exact `exp`; the coefficients are the decimal numbers written in the source.  Not modelled: NaN
and infinite arguments.
-/

namespace Verif.Normal

/-- `ERF_IMPL_AN` (`src/stats_utils/normal.rs:3-12`). -/
def erfAN : List ℚ := [
  0.00337916709551257388990745,
  -0.00073695653048167948530905,
  -0.374732337392919607868241,
  0.0817442448733587196071743,
  -0.0421089319936548595203468,
  0.0070165709512095756344528,
  -0.00495091255982435110337458,
  0.000871646599037922480317225]

/-- `ERF_IMPL_AD` (`src/stats_utils/normal.rs:16-25`). -/
def erfAD : List ℚ := [
  1.0,
  -0.218088218087924645390535,
  0.412542972725442099083918,
  -0.0841891147873106755410271,
  0.0655338856400241519690695,
  -0.0120019604454941768171266,
  0.00408165558926174048329689,
  -0.000615900721557769691924509]

/-- `ERF_IMPL_BN` (`src/stats_utils/normal.rs:29-36`). -/
def erfBN : List ℚ := [
  -0.0361790390718262471360258,
  0.292251883444882683221149,
  0.281447041797604512774415,
  0.125610208862766947294894,
  0.0274135028268930549240776,
  0.00250839672168065762786937]

/-- `ERF_IMPL_BD` (`src/stats_utils/normal.rs:40-47`). -/
def erfBD : List ℚ := [
  1.0,
  1.8545005897903486499845,
  1.43575803037831418074962,
  0.582827658753036572454135,
  0.124810476932949746447682,
  0.0113724176546353285778481]

/-- `ERF_IMPL_CN` (`src/stats_utils/normal.rs:51-59`). -/
def erfCN : List ℚ := [
  -0.0397876892611136856954425,
  0.153165212467878293257683,
  0.191260295600936245503129,
  0.10276327061989304213645,
  0.029637090615738836726027,
  0.0046093486780275489468812,
  0.000307607820348680180548455]

/-- `ERF_IMPL_CD` (`src/stats_utils/normal.rs:63-71`). -/
def erfCD : List ℚ := [
  1.0,
  1.95520072987627704987886,
  1.64762317199384860109595,
  0.768238607022126250082483,
  0.209793185936509782784315,
  0.0319569316899913392596356,
  0.00213363160895785378615014]

/-- `ERF_IMPL_DN` (`src/stats_utils/normal.rs:75-83`). -/
def erfDN : List ℚ := [
  -0.0300838560557949717328341,
  0.0538578829844454508530552,
  0.0726211541651914182692959,
  0.0367628469888049348429018,
  0.00964629015572527529605267,
  0.00133453480075291076745275,
  0.778087599782504251917881e-4]

/-- `ERF_IMPL_DD` (`src/stats_utils/normal.rs:87-96`). -/
def erfDD : List ℚ := [
  1.0,
  1.75967098147167528287343,
  1.32883571437961120556307,
  0.552528596508757581287907,
  0.133793056941332861912279,
  0.0179509645176280768640766,
  0.00104712440019937356634038,
  -0.106640381820357337177643e-7]

/-- `ERF_IMPL_EN` (`src/stats_utils/normal.rs:100-108`). -/
def erfEN : List ℚ := [
  -0.0117907570137227847827732,
  0.014262132090538809896674,
  0.0202234435902960820020765,
  0.00930668299990432009042239,
  0.00213357802422065994322516,
  0.00025022987386460102395382,
  0.120534912219588189822126e-4]

/-- `ERF_IMPL_ED` (`src/stats_utils/normal.rs:112-120`). -/
def erfED : List ℚ := [
  1.0,
  1.50376225203620482047419,
  0.965397786204462896346934,
  0.339265230476796681555511,
  0.0689740649541569716897427,
  0.00771060262491768307365526,
  0.000371421101531069302990367]

/-- `ERF_IMPL_FN` (`src/stats_utils/normal.rs:124-132`). -/
def erfFN : List ℚ := [
  -0.00546954795538729307482955,
  0.00404190278731707110245394,
  0.0054963369553161170521356,
  0.00212616472603945399437862,
  0.000394984014495083900689956,
  0.365565477064442377259271e-4,
  0.135485897109932323253786e-5]

/-- `ERF_IMPL_FD` (`src/stats_utils/normal.rs:136-145`). -/
def erfFD : List ℚ := [
  1.0,
  1.21019697773630784832251,
  0.620914668221143886601045,
  0.173038430661142762569515,
  0.0276550813773432047594539,
  0.00240625974424309709745382,
  0.891811817251336577241006e-4,
  -0.465528836283382684461025e-11]

/-- `ERF_IMPL_GN` (`src/stats_utils/normal.rs:149-156`). -/
def erfGN : List ℚ := [
  -0.00270722535905778347999196,
  0.0013187563425029400461378,
  0.00119925933261002333923989,
  0.00027849619811344664248235,
  0.267822988218331849989363e-4,
  0.923043672315028197865066e-6]

/-- `ERF_IMPL_GD` (`src/stats_utils/normal.rs:160-168`). -/
def erfGD : List ℚ := [
  1.0,
  0.814632808543141591118279,
  0.268901665856299542168425,
  0.0449877216103041118694989,
  0.00381759663320248459168994,
  0.000131571897888596914350697,
  0.404815359675764138445257e-11]

/-- `ERF_IMPL_HN` (`src/stats_utils/normal.rs:172-179`). -/
def erfHN : List ℚ := [
  -0.00109946720691742196814323,
  0.000406425442750422675169153,
  0.000274499489416900707787024,
  0.465293770646659383436343e-4,
  0.320955425395767463401993e-5,
  0.778286018145020892261936e-7]

/-- `ERF_IMPL_HD` (`src/stats_utils/normal.rs:183-190`). -/
def erfHD : List ℚ := [
  1.0,
  0.588173710611846046373373,
  0.139363331289409746077541,
  0.0166329340417083678763028,
  0.00100023921310234908642639,
  0.24254837521587225125068e-4]

/-- `ERF_IMPL_IN` (`src/stats_utils/normal.rs:194-200`). -/
def erfIN : List ℚ := [
  -0.00056907993601094962855594,
  0.000169498540373762264416984,
  0.518472354581100890120501e-4,
  0.382819312231928859704678e-5,
  0.824989931281894431781794e-7]

/-- `ERF_IMPL_ID` (`src/stats_utils/normal.rs:204-211`). -/
def erfID : List ℚ := [
  1.0,
  0.339637250051139347430323,
  0.043472647870310663055044,
  0.00248549335224637114641629,
  0.535633305337152900549536e-4,
  -0.117490944405459578783846e-12]

/-- `ERF_IMPL_JN` (`src/stats_utils/normal.rs:215-221`). -/
def erfJN : List ℚ := [
  -0.000241313599483991337479091,
  0.574224975202501512365975e-4,
  0.115998962927383778460557e-4,
  0.581762134402593739370875e-6,
  0.853971555085673614607418e-8]

/-- `ERF_IMPL_JD` (`src/stats_utils/normal.rs:225-231`). -/
def erfJD : List ℚ := [
  1.0,
  0.233044138299687841018015,
  0.0204186940546440312625597,
  0.000797185647564398289151125,
  0.117019281670172327758019e-4]

/-- `ERF_IMPL_KN` (`src/stats_utils/normal.rs:235-241`). -/
def erfKN : List ℚ := [
  -0.000146674699277760365803642,
  0.162666552112280519955647e-4,
  0.269116248509165239294897e-5,
  0.979584479468091935086972e-7,
  0.101994647625723465722285e-8]

/-- `ERF_IMPL_KD` (`src/stats_utils/normal.rs:245-251`). -/
def erfKD : List ℚ := [
  1.0,
  0.165907812944847226546036,
  0.0103361716191505884359634,
  0.000286593026373868366935721,
  0.298401570840900340874568e-5]

/-- `ERF_IMPL_LN` (`src/stats_utils/normal.rs:255-261`). -/
def erfLN : List ℚ := [
  -0.583905797629771786720406e-4,
  0.412510325105496173512992e-5,
  0.431790922420250949096906e-6,
  0.993365155590013193345569e-8,
  0.653480510020104699270084e-10]

/-- `ERF_IMPL_LD` (`src/stats_utils/normal.rs:265-271`). -/
def erfLD : List ℚ := [
  1.0,
  0.105077086072039915406159,
  0.00414278428675475620830226,
  0.726338754644523769144108e-4,
  0.477818471047398785369849e-6]

/-- `ERF_IMPL_MN` (`src/stats_utils/normal.rs:275-280`). -/
def erfMN : List ℚ := [
  -0.196457797609229579459841e-4,
  0.157243887666800692441195e-5,
  0.543902511192700878690335e-7,
  0.317472492369117710852685e-9]

/-- `ERF_IMPL_MD` (`src/stats_utils/normal.rs:284-290`). -/
def erfMD : List ℚ := [
  1.0,
  0.052803989240957632204885,
  0.000926876069151753290378112,
  0.541011723226630257077328e-5,
  0.535093845803642394908747e-15]

/-- `ERF_IMPL_NN` (`src/stats_utils/normal.rs:294-299`). -/
def erfNN : List ℚ := [
  -0.789224703978722689089794e-5,
  0.622088451660986955124162e-6,
  0.145728445676882396797184e-7,
  0.603715505542715364529243e-10]

/-- `ERF_IMPL_ND` (`src/stats_utils/normal.rs:303-308`). -/
def erfND : List ℚ := [
  1.0,
  0.0375328846356293715248719,
  0.000467919535974625308126054,
  0.193847039275845656900547e-5]

/-- `polynomial` (`src/stats_utils/normal.rs:520-531`). -/
noncomputable def polynomial (z : ℝ) (coeff : List ℚ) : ℝ :=
  match coeff.getLast? with
  | none => 0
  | some c => coeff.dropLast.foldr (fun (c : ℚ) s => (c : ℝ) + z * s) (c : ℝ)

/-- Numerator, denominator, their origin and the constant `b` of one branch. -/
structure Piece where
  lo : ℚ
  num : List ℚ
  den : List ℚ
  b : ℚ

/-- The branch up to 0.75 (`src/stats_utils/normal.rs:554-557`). -/
def pieceB : Piece := { lo := 0.5, num := erfBN, den := erfBD, b := 0.3440242112 }

/-- The branch up to 1.25 (`src/stats_utils/normal.rs:559-562`). -/
def pieceC : Piece := { lo := 0.75, num := erfCN, den := erfCD, b := 0.419990927 }

/-- The branch up to 2.25 (`src/stats_utils/normal.rs:564-567`). -/
def pieceD : Piece := { lo := 1.25, num := erfDN, den := erfDD, b := 0.4898625016 }

/-- The branch up to 3.5 (`src/stats_utils/normal.rs:569-572`). -/
def pieceE : Piece := { lo := 2.25, num := erfEN, den := erfED, b := 0.5317370892 }

/-- The branch up to 5.25 (`src/stats_utils/normal.rs:574-577`). -/
def pieceF : Piece := { lo := 3.5, num := erfFN, den := erfFD, b := 0.5489973426 }

/-- The branch up to 8 (`src/stats_utils/normal.rs:579-582`). -/
def pieceG : Piece := { lo := 5.25, num := erfGN, den := erfGD, b := 0.5571740866 }

/-- The branch up to 11.5 (`src/stats_utils/normal.rs:584-587`). -/
def pieceH : Piece := { lo := 8, num := erfHN, den := erfHD, b := 0.5609807968 }

/-- The branch up to 17 (`src/stats_utils/normal.rs:589-592`). -/
def pieceI : Piece := { lo := 11.5, num := erfIN, den := erfID, b := 0.5626493692 }

/-- The branch up to 24 (`src/stats_utils/normal.rs:594-597`). -/
def pieceJ : Piece := { lo := 17, num := erfJN, den := erfJD, b := 0.5634598136 }

/-- The branch up to 38 (`src/stats_utils/normal.rs:599-602`). -/
def pieceK : Piece := { lo := 24, num := erfKN, den := erfKD, b := 0.5638477802 }

/-- The branch up to 60 (`src/stats_utils/normal.rs:604-607`). -/
def pieceL : Piece := { lo := 38, num := erfLN, den := erfLD, b := 0.5640528202 }

/-- The branch up to 85 (`src/stats_utils/normal.rs:609-612`). -/
def pieceM : Piece := { lo := 60, num := erfMN, den := erfMD, b := 0.5641309023 }

/-- The branch up to 110 (`src/stats_utils/normal.rs:614-617`). -/
def pieceN : Piece := { lo := 85, num := erfNN, den := erfND, b := 0.5641584396 }

/-- The branches for `0.5 <= z < 110` (`src/stats_utils/normal.rs:553-618`). -/
noncomputable def pieceAt (z : ℝ) : Piece :=
  if z < 0.75 then pieceB
  else if z < 1.25 then pieceC
  else if z < 2.25 then pieceD
  else if z < 3.5 then pieceE
  else if z < 5.25 then pieceF
  else if z < 8 then pieceG
  else if z < 11.5 then pieceH
  else if z < 17 then pieceI
  else if z < 24 then pieceJ
  else if z < 38 then pieceK
  else if z < 60 then pieceL
  else if z < 85 then pieceM
  else pieceN

/-- `g * (b + r)` (`src/stats_utils/normal.rs:619-620`). -/
noncomputable def Piece.value (p : Piece) (z : ℝ) : ℝ :=
  Real.exp (-z * z) / z * (p.b + polynomial (z - p.lo) p.num / polynomial (z - p.lo) p.den)

/-- The variable `result` (`src/stats_utils/normal.rs:546-623`). -/
noncomputable def result (z : ℝ) : ℝ :=
  if z < 1 / 2 then
    if z < 1e-10 then z * 1.125 + z * 0.003379167095512573896158903121545171688
    else z * 1.125 + z * polynomial z erfAN / polynomial z erfAD
  else if z < 110 then (pieceAt z).value z
  else 0

/-- `erf_impl` for `z >= 0` (`src/stats_utils/normal.rs:546-632`). -/
noncomputable def erfPos (z : ℝ) (inv : Bool) : ℝ :=
  if inv = true ∧ 1 / 2 ≤ z then result z
  else if 1 / 2 ≤ z ∨ inv = true then 1 - result z
  else result z

/-- `erf_impl` (`src/stats_utils/normal.rs:535-632`). -/
noncomputable def erfImpl (z : ℝ) (inv : Bool) : ℝ :=
  if z < 0 then
    if inv = false then -erfPos (-z) false
    else if z < -(1 / 2) then 2 - erfPos (-z) true
    else 1 + erfPos (-z) false
  else erfPos z inv

/-- `erfc` (`src/stats_utils/normal.rs:508-518`) for a finite argument. -/
noncomputable def erfc (x : ℝ) : ℝ := erfImpl x true

/-- `sf_unchecked` (`src/stats_utils/normal.rs:503-505`). -/
noncomputable def sf (x mean stdDev : ℝ) : ℝ := 0.5 * erfc ((x - mean) / (stdDev * Real.sqrt 2))

end Verif.Normal

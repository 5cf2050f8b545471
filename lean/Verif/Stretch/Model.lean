import Verif.Tuning.Model

/-!
Model of stretch tuning: `StretchTuning` (/repo/src/sfizz/Tuning.cpp:260-329), the call `loadStretchTuningByRatio`
(/repo/src/sfizz/Synth.cpp:1020-1031) and its use when a voice starts (/repo/src/sfizz/Voice.cpp:493-499).

Floats are real numbers. The three curves are the numbers written in /repo/src/sfizz/railsback, in millionths.
-/
namespace Verif.Stretch

open Verif.Tuning (Val)

/-- railsback/2-1.h. -/
def railsback21 : List Nat :=
  [995011, 995085, 995162, 995242, 995324, 995409, 995496, 995587, 995680, 995775, 995874, 995975,
   996079, 996185, 996294, 996406, 996521, 996638, 996758, 996880, 997006, 997134, 997264, 997398,
   997534, 997673, 997814, 997959, 998106, 998255, 998408, 998562, 998706, 998835, 998951, 999066,
   999186, 999308, 999421, 999519, 999604, 999683, 999759, 999833, 999899, 999956, 1000005, 1000046,
   1000079, 1000103, 1000120, 1000128, 1000129, 1000129, 1000130, 1000132, 1000135, 1000140, 1000145, 1000151,
   1000158, 1000167, 1000177, 1000190, 1000204, 1000220, 1000239, 1000261, 1000301, 1000360, 1000437, 1000522,
   1000614, 1000711, 1000810, 1000909, 1001009, 1001119, 1001241, 1001376, 1001523, 1001680, 1001847, 1002007,
   1002158, 1002305, 1002487, 1002715, 1002982, 1003252, 1003517, 1003779, 1004058, 1004357, 1004673, 1004991,
   1005309, 1005630, 1005990, 1006395, 1006839, 1007285, 1007727, 1008163, 1008595, 1009023, 1009446, 1009864,
   1010278, 1010687, 1011092, 1011492, 1011887, 1012278, 1012664, 1013045, 1013422, 1013794, 1014161, 1014524,
   1014882, 1015236, 1015585, 1015929, 1016268, 1016603, 1016933, 1017258]

/-- railsback/4-1.h. -/
def railsback41 : List Nat :=
  [939286, 942401, 945435, 948389, 951261, 954050, 956756, 959378, 961915, 964367, 966732, 969011,
   971202, 973305, 975320, 977245, 979080, 980825, 982479, 984041, 985512, 986891, 988177, 989371,
   990471, 991477, 992390, 993208, 993932, 994561, 995096, 995559, 995995, 996407, 996789, 997140,
   997460, 997745, 997997, 998229, 998444, 998640, 998811, 998957, 999095, 999228, 999357, 999479,
   999594, 999701, 999803, 999899, 999990, 1000069, 1000135, 1000196, 1000261, 1000330, 1000398, 1000463,
   1000525, 1000582, 1000635, 1000690, 1000748, 1000809, 1000871, 1000932, 1000998, 1001079, 1001173, 1001269,
   1001365, 1001463, 1001572, 1001695, 1001831, 1001977, 1002132, 1002296, 1002474, 1002666, 1002873, 1003102,
   1003354, 1003633, 1003948, 1004304, 1004696, 1005088, 1005475, 1005861, 1006287, 1006760, 1007286, 1007886,
   1008566, 1009328, 1010176, 1011111, 1012135, 1013248, 1014449, 1015739, 1017119, 1018588, 1020148, 1021798,
   1023539, 1025371, 1027295, 1029312, 1031422, 1033625, 1035922, 1038314, 1040801, 1043384, 1046063, 1048840,
   1051715, 1054689, 1057763, 1060937, 1064213, 1067590, 1071071, 1074656]

/-- railsback/4-2.h. -/
def railsback42 : List Nat :=
  [968133, 969216, 970284, 971335, 972369, 973387, 974388, 975372, 976340, 977291, 978225, 979141,
   980041, 980924, 981790, 982639, 983470, 984284, 985081, 985861, 986623, 987368, 988096, 988806,
   989498, 990173, 990830, 991470, 992092, 992697, 993283, 993852, 994403, 994935, 995443, 995928,
   996389, 996814, 997202, 997551, 997868, 998152, 998405, 998641, 998864, 999074, 999267, 999438,
   999586, 999713, 999837, 999962, 1000087, 1000196, 1000285, 1000364, 1000450, 1000542, 1000641, 1000746,
   1000860, 1000983, 1001116, 1001259, 1001419, 1001605, 1001819, 1002058, 1002311, 1002576, 1002854, 1003142,
   1003441, 1003750, 1004081, 1004433, 1004808, 1005217, 1005662, 1006141, 1006636, 1007143, 1007662, 1008198,
   1008754, 1009329, 1009939, 1010585, 1011265, 1011950, 1012636, 1013327, 1014061, 1014847, 1015679, 1016517,
   1017351, 1018188, 1019062, 1019981, 1020944, 1021952, 1023004, 1024100, 1025242, 1026428, 1027660, 1028937,
   1030259, 1031627, 1033041, 1034501, 1036007, 1037559, 1039158, 1040804, 1042497, 1044237, 1046024, 1047859,
   1049742, 1051673, 1053653, 1055681, 1057759, 1059885, 1062061, 1064287]

/-- An entry of a curve. -/
noncomputable def entry (c : List Nat) (i : Nat) : ℝ := (c.getD i 0 : ℝ) / 1000000

/-- `keyDetuneRatio_`: 128 ratios. -/
abbrev Ratios := Fin 128 → ℝ

/-- `createRailsbackFromRatio` (Tuning.cpp:283-329): the loop of lines 303-305 over the points 0.25, 0.5 and 1 is written out. -/
noncomputable def railsback (stretch : ℝ) : Ratios :=
  let index : Int := if stretch ≥ 0.25 then (if stretch ≥ 0.5 then (if stretch ≥ 1 then 2 else 1) else 0) else -1
  if index < 0 then
    let mu := max 0 (stretch / 0.25)
    fun i => mu * entry railsback21 i + (1 - mu)
  else if index = 0 then
    let mu := (stretch - 0.25) / (0.5 - 0.25)
    fun i => mu * entry railsback41 i + (1 - mu) * entry railsback21 i
  else if index = 1 then
    let mu := (stretch - 0.5) / (1 - 0.5)
    fun i => mu * entry railsback42 i + (1 - mu) * entry railsback41 i
  else fun i => entry railsback42 i

/-- `static_cast<int>` of a number: rounded towards 0, not defined outside of `int`. -/
noncomputable def toInt : Val → Option Int
  | .num x =>
    let k := if 0 ≤ x then ⌊x⌋ else ⌈x⌉
    if -2147483648 ≤ k ∧ k ≤ 2147483647 then some k else none
  | _ => none

/-- `std::max(0, std::min(127, k))`. -/
def clampKey (k : Int) : Fin 128 := ⟨(max 0 (min 127 k)).toNat, by omega⟩

/-- `getRatioForFractionalKey` (Tuning.cpp:265-274). `none`: not defined. -/
noncomputable def ratioAt (t : Ratios) (key : Val) : Option ℝ :=
  match key, toInt key with
  | .num x, some index1 =>
    let mu := x - index1
    let i1 := clampKey index1
    let i2 := clampKey (i1 + 1)
    some (t i1 * (1 - mu) + t i2 * mu)
  | _, _ => none

/-- `loadStretchTuningByRatio` (Synth.cpp:1020-1031): the new stretch tuning. -/
noncomputable def loadRatio (ratio : ℝ) : Option Ratios :=
  let ratio := max 0 (min 1 ratio)
  if ratio > 0 then some (railsback ratio) else none

/-- The factor that stretch tuning puts on the pitch of a voice (Voice.cpp:498-499). -/
noncomputable def factor (stretch : Option Ratios) (key : Val) : Option ℝ :=
  match stretch with
  | none => some 1
  | some t => ratioAt t key

end Verif.Stretch

import Mathlib.Analysis.SpecialFunctions.Log.Basic
import Mathlib.Algebra.Order.Floor.Semiring
import Verif.Common.Outcome

/-!
# Landau distribution

Merlin++/LandauDistribution.h, used by `RandomNG::landau` (RandomNG.cpp 112-120).  Doubles and floats are real numbers: the entries of the table are the
decimal numbers of the source.  The random number `r` is from [0, 1).
-/

namespace Verif.Landau

open Verif

/-- `F` from entry 0 on (LandauDistribution.h 11-209), in units of 10⁻⁶. -/
def part0 : List Int := [
  0, 0, 0, 0, 0, 0, -2244733, -2204365, -2168163, -2135219, -2104898, -2076740, -2050397, -2025605,
  -2002150, -1979866, -1958612, -1938275, -1918760, -1899984, -1881879, -1864385, -1847451, -1831030, -1815083, -1799574, -1784473, -1769751,
  -1755383, -1741346, -1727620, -1714187, -1701029, -1688130, -1675477, -1663057, -1650858, -1638868, -1627078, -1615477, -1604058, -1592811,
  -1581729, -1570806, -1560034, -1549407, -1538919, -1528565, -1518339, -1508237, -1498254, -1488386, -1478628, -1468976, -1459428, -1449979,
  -1440626, -1431365, -1422195, -1413111, -1404112, -1395194, -1386356, -1377594, -1368906, -1360291, -1351746, -1343269, -1334859, -1326512,
  -1318229, -1310006, -1301843, -1293737, -1285688, -1277693, -1269752, -1261863, -1254024, -1246235, -1238494, -1230800, -1223153, -1215550,
  -1207990, -1200474, -1192999, -1185566, -1178172, -1170817, -1163500, -1156220, -1148977, -1141770, -1134598, -1127459, -1120354, -1113282,
  -1106242, -1099233]

/-- `F` from entry 100 on (LandauDistribution.h 11-209), in units of 10⁻⁶. -/
def part1 : List Int := [
  -1092255, -1085306, -1078388, -1071498, -1064636, -1057802, -1050996, -1044215, -1037461, -1030733, -1024029, -1017350, -1010695, -1004064,
  -997456, -990871, -984308, -977767, -971247, -964749, -958271, -951813, -945375, -938957, -932558, -926178, -919816, -913472,
  -907146, -900838, -894547, -888272, -882014, -875773, -869547, -863337, -857142, -850963, -844798, -838648, -832512, -826390,
  -820282, -814187, -808106, -802038, -795982, -789940, -783909, -777891, -771884, -765889, -759906, -753934, -747973, -742023,
  -736084, -730155, -724237, -718328, -712429, -706541, -700661, -694791, -688931, -683079, -677236, -671402, -665576, -659759,
  -653950, -648149, -642356, -636570, -630793, -625022, -619259, -613503, -607754, -602012, -596276, -590548, -584825, -579109,
  -573399, -567695, -561997, -556305, -550618, -544937, -539262, -533592, -527926, -522266, -516611, -510961, -505315, -499674,
  -494037, -488405]

/-- `F` from entry 200 on (LandauDistribution.h 11-209), in units of 10⁻⁶. -/
def part2 : List Int := [
  -482777, -477153, -471533, -465917, -460305, -454697, -449092, -443491, -437893, -432299, -426707, -421119, -415534, -409951,
  -404372, -398795, -393221, -387649, -382080, -376513, -370949, -365387, -359826, -354268, -348712, -343157, -337604, -332053,
  -326503, -320955, -315408, -309863, -304318, -298775, -293233, -287692, -282152, -276613, -271074, -265536, -259999, -254462,
  -248926, -243389, -237854, -232318, -226783, -221247, -215712, -210176, -204641, -199105, -193568, -188032, -182495, -176957,
  -171419, -165880, -160341, -154800, -149259, -143717, -138173, -132629, -127083, -121537, -115989, -110439, -104889, -99336,
  -93782, -88227, -82670, -77111, -71550, -65987, -60423, -54856, -49288, -43717, -38144, -32569, -26991, -21411,
  -15828, -10243, -4656, 934, 6527, 12123, 17722, 23323, 28928, 34535, 40146, 45759, 51376, 56997,
  62620, 68247]

/-- `F` from entry 300 on (LandauDistribution.h 11-209), in units of 10⁻⁶. -/
def part3 : List Int := [
  73877, 79511, 85149, 90790, 96435, 102083, 107736, 113392, 119052, 124716, 130385, 136057, 141734, 147414,
  153100, 158789, 164483, 170181, 175884, 181592, 187304, 193021, 198743, 204469, 210201, 215937, 221678, 227425,
  233177, 238933, 244696, 250463, 256236, 262014, 267798, 273587, 279382, 285183, 290989, 296801, 302619, 308443,
  314273, 320109, 325951, 331799, 337654, 343515, 349382, 355255, 361135, 367022, 372915, 378815, 384721, 390634,
  396554, 402481, 408415, 414356, 420304, 426260, 432222, 438192, 444169, 450153, 456145, 462144, 468151, 474166,
  480188, 486218, 492256, 498302, 504356, 510418, 516488, 522566, 528653, 534747, 540850, 546962, 553082, 559210,
  565347, 571493, 577648, 583811, 589983, 596164, 602355, 608554, 614762, 620980, 627207, 633444, 639689, 645945,
  652210, 658484]

/-- `F` from entry 400 on (LandauDistribution.h 11-209), in units of 10⁻⁶. -/
def part4 : List Int := [
  664768, 671062, 677366, 683680, 690004, 696338, 702682, 709036, 715400, 721775, 728160, 734556, 740963, 747379,
  753807, 760246, 766695, 773155, 779627, 786109, 792603, 799107, 805624, 812151, 818690, 825241, 831803, 838377,
  844962, 851560, 858170, 864791, 871425, 878071, 884729, 891399, 898082, 904778, 911486, 918206, 924940, 931686,
  938446, 945218, 952003, 958802, 965614, 972439, 979278, 986130, 992996, 999875, 1006769, 1013676, 1020597, 1027533,
  1034482, 1041446, 1048424, 1055417, 1062424, 1069446, 1076482, 1083534, 1090600, 1097681, 1104778, 1111889, 1119016, 1126159,
  1133316, 1140490, 1147679, 1154884, 1162105, 1169342, 1176595, 1183864, 1191149, 1198451, 1205770, 1213105, 1220457, 1227826,
  1235211, 1242614, 1250034, 1257471, 1264926, 1272398, 1279888, 1287395, 1294921, 1302464, 1310026, 1317605, 1325203, 1332819,
  1340454, 1348108]

/-- `F` from entry 500 on (LandauDistribution.h 11-209), in units of 10⁻⁶. -/
def part5 : List Int := [
  1355780, 1363472, 1371182, 1378912, 1386660, 1394429, 1402216, 1410024, 1417851, 1425698, 1433565, 1441453, 1449360, 1457288,
  1465237, 1473206, 1481196, 1489208, 1497240, 1505293, 1513368, 1521465, 1529583, 1537723, 1545885, 1554068, 1562275, 1570503,
  1578754, 1587028, 1595325, 1603644, 1611987, 1620353, 1628743, 1637156, 1645593, 1654053, 1662538, 1671047, 1679581, 1688139,
  1696721, 1705329, 1713961, 1722619, 1731303, 1740011, 1748746, 1757506, 1766293, 1775106, 1783945, 1792810, 1801703, 1810623,
  1819569, 1828543, 1837545, 1846574, 1855631, 1864717, 1873830, 1882972, 1892143, 1901343, 1910572, 1919830, 1929117, 1938434,
  1947781, 1957158, 1966566, 1976004, 1985473, 1994972, 2004503, 2014065, 2023659, 2033285, 2042943, 2052633, 2062355, 2072110,
  2081899, 2091720, 2101575, 2111464, 2121386, 2131343, 2141334, 2151360, 2161421, 2171517, 2181648, 2191815, 2202018, 2212257,
  2222533, 2232845]

/-- `F` from entry 600 on (LandauDistribution.h 11-209), in units of 10⁻⁶. -/
def part6 : List Int := [
  2243195, 2253582, 2264006, 2274468, 2284968, 2295507, 2306084, 2316701, 2327356, 2338051, 2348786, 2359562, 2370377, 2381234,
  2392131, 2403070, 2414051, 2425073, 2436138, 2447246, 2458397, 2469591, 2480828, 2492110, 2503436, 2514807, 2526222, 2537684,
  2549190, 2560743, 2572343, 2583989, 2595682, 2607423, 2619212, 2631050, 2642936, 2654871, 2666855, 2678890, 2690975, 2703110,
  2715297, 2727535, 2739825, 2752168, 2764563, 2777012, 2789514, 2802070, 2814681, 2827347, 2840069, 2852846, 2865680, 2878570,
  2891518, 2904524, 2917588, 2930712, 2943894, 2957136, 2970439, 2983802, 2997227, 3010714, 3024263, 3037875, 3051551, 3065290,
  3079095, 3092965, 3106900, 3120902, 3134971, 3149107, 3163312, 3177585, 3191928, 3206340, 3220824, 3235378, 3250005, 3264704,
  3279477, 3294323, 3309244, 3324240, 3339312, 3354461, 3369687, 3384992, 3400375, 3415838, 3431381, 3447005, 3462711, 3478500,
  3494372, 3510328]

/-- `F` from entry 700 on (LandauDistribution.h 11-209), in units of 10⁻⁶. -/
def part7 : List Int := [
  3526370, 3542497, 3558711, 3575012, 3591402, 3607881, 3624450, 3641111, 3657863, 3674708, 3691646, 3708680, 3725809, 3743034,
  3760357, 3777779, 3795300, 3812921, 3830645, 3848470, 3866400, 3884434, 3902574, 3920821, 3939176, 3957640, 3976215, 3994901,
  4013699, 4032612, 4051639, 4070783, 4090045, 4109425, 4128925, 4148547, 4168292, 4188160, 4208154, 4228275, 4248524, 4268903,
  4289413, 4310056, 4330832, 4351745, 4372794, 4393982, 4415310, 4436781, 4458395, 4480154, 4502060, 4524114, 4546319, 4568676,
  4591187, 4613854, 4636678, 4659662, 4682807, 4706116, 4729590, 4753231, 4777041, 4801024, 4825179, 4849511, 4874020, 4898710,
  4923582, 4948639, 4973883, 4999316, 5024942, 5050761, 5076778, 5102993, 5129411, 5156034, 5182864, 5209903, 5237156, 5264625,
  5292312, 5320220, 5348354, 5376714, 5405306, 5434131, 5463193, 5492496, 5522042, 5551836, 5581880, 5612178, 5642734, 5673552,
  5704634, 5735986]

/-- `F` from entry 800 on (LandauDistribution.h 11-209), in units of 10⁻⁶. -/
def part8 : List Int := [
  5767610, 5799512, 5831694, 5864161, 5896918, 5929968, 5963316, 5996967, 6030925, 6065194, 6099780, 6134687, 6169921, 6205486,
  6241387, 6277630, 6314220, 6351163, 6388465, 6426130, 6464166, 6502578, 6541371, 6580553, 6620130, 6660109, 6700495, 6741297,
  6782520, 6824173, 6866262, 6908795, 6951780, 6995225, 7039137, 7083525, 7128398, 7173764, 7219632, 7266011, 7312910, 7360339,
  7408308, 7456827, 7505905, 7555554, 7605785, 7656608, 7708035, 7760077, 7812747, 7866057, 7920019, 7974647, 8029953, 8085952,
  8142657, 8200083, 8258245, 8317158, 8376837, 8437300, 8498562, 8560641, 8623554, 8687319, 8751955, 8817481, 8883916, 8951282,
  9019600, 9088889, 9159174, 9230477, 9302822, 9376233, 9450735, 9526355, 9603118, 9681054, 9760191, 9840558, 9922186, 10005107,
  10089353, 10174959, 10261958, 10350389, 10440287, 10531693, 10624646, 10719188, 10815362, 10913214, 11012789, 11114137, 11217307, 11322352,
  11429325, 11538283]

/-- `F` from entry 900 on (LandauDistribution.h 11-209), in units of 10⁻⁶. -/
def part9 : List Int := [
  11649285, 11762390, 11877664, 11995170, 12114979, 12237161, 12361791, 12488946, 12618708, 12751161, 12886394, 13024498, 13165570, 13309711,
  13457026, 13607625, 13761625, 13919145, 14080314, 14245263, 14414134, 14587072, 14764233, 14945778, 15131877, 15322712, 15518470, 15719353,
  15925570, 16137345, 16354912, 16578520, 16808433, 17044929, 17288305, 17538873, 17796967, 18062943, 18337176, 18620068, 18912049, 19213574,
  19525133, 19847249, 20180480, 20525429, 20882738, 21253102, 21637266, 22036036, 22450278, 22880933, 23329017, 23795634, 24281981, 24789364,
  25319207, 25873062, 26452634, 27059789, 27696581, 28365274, 29068370, 29808638, 30589157, 31413354, 32285060, 33208568, 34188705, 35230920,
  36341388, 37527131, 38796172, 40157721, 41622399, 43202525, 44912465, 46769077, 48792279, 51005773, 53437996, 56123356, 59103894]

/-- `F` (LandauDistribution.h 11-209), in units of 10⁻⁶. -/
def table : List Int := part0 ++ part1 ++ part2 ++ part3 ++ part4 ++ part5 ++ part6 ++ part7 ++ part8 ++ part9

/-- An entry. -/
noncomputable def F (i : Nat) : ℝ := ((table.getD i 0 : Int) : ℝ) / 1000000

/-- Reading an entry: outside the table undefined. -/
noncomputable def entry (i : Nat) : Outcome Empty ℝ := if i < table.length then .ok (F i) else .ub

/-- Between two entries (LandauDistribution.h 235-238). -/
noncomputable def linear (i : Nat) (du : ℝ) : Outcome Empty ℝ :=
  (entry i).bind fun a => (entry (i + 1)).bind fun b => .ok (a + du * (b - a))

/-- With four entries (LandauDistribution.h 239-242). -/
noncomputable def curved (i : Nat) (du : ℝ) : Outcome Empty ℝ :=
  (entry i).bind fun a => (entry (i + 1)).bind fun b => (entry (i + 2)).bind fun c => (entry (i - 1)).bind fun z =>
    .ok (a + du * (b - a - 25 / 100 * (1 - du) * (c - b - a + z)))

/-- Numerator of the formula for small numbers (LandauDistribution.h 249). -/
noncomputable def lowNum (V : ℝ) : ℝ := 99858950 / 100000000 + 345213058 / 10000000 * V + 170854528 / 10000000 * (V * V)

/-- Denominator of the formula for small numbers (LandauDistribution.h 249-250). -/
noncomputable def lowDen (V : ℝ) : ℝ := 1 + 341760202 / 10000000 * V + 401244582 / 100000000 * (V * V)

/-- The formula for small numbers (LandauDistribution.h 243-251).  The logarithm of zero and a division by zero, which give infinities, are undefined here. -/
noncomputable def low (r : ℝ) : Outcome Empty ℝ :=
  let L := Real.log r
  let V := 1 / L
  if r ≤ 0 ∨ lowDen V = 0 then .ub else .ok ((-Real.log (-(91893853 / 100000000) - L) - 1) * (lowNum V / lowDen V))

/-- The first formula for large numbers (LandauDistribution.h 252-257). -/
noncomputable def high (r : ℝ) : ℝ :=
  let V := 1 - r
  let VV := V * V
  (100060006 / 100000000 + 263991156 / 1000000 * V + 437320068 / 100000 * VV) / (V * (1 + 257368075 / 1000000 * V + 341448018 / 100000 * VV))

/-- The second formula for large numbers (LandauDistribution.h 258-263). -/
noncomputable def far (r : ℝ) : ℝ :=
  let V := 1 - r
  let VV := V * V
  (100001538 / 100000000 + 607514119 / 100000 * V + 734266409 / 1000 * VV) / (V * (1 + 606511919 / 100000 * V + 694021044 / 1000 * VV))

/-- `operator()` (LandauDistribution.h 226-264). -/
noncomputable def landau (r : ℝ) : Outcome Empty ℝ :=
  let U := 1000 * r
  let I := ⌊U⌋₊
  let du := U - I
  if 70 ≤ I ∧ I ≤ 800 then linear I du
  else if 7 ≤ I ∧ I ≤ 980 then curved I du
  else if I < 7 then low r
  else if I ≤ 999 then .ok (high r)
  else .ok (far r)

end Verif.Landau

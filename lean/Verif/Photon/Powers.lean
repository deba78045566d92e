import Verif.Photon.Series

/-! The functions for low energies as polynomials of the square of the energy. -/

namespace Verif.Photon
open Real

/-- A polynomial with given coefficients. -/
noncomputable def poly : List ℤ → ℝ → ℝ
  | [], _ => 0
  | c :: cs, w => c + w * poly cs w

/-- The common denominator of the coefficients. -/
def scale : ℤ := 236118324143482260684800000000000000000000

/-- Coefficients of powers, as whole numbers. -/
def pPowers : List ℤ :=
  [279823124926769951473876771787710413144064,
   52466835923769365877740062295847476396032,
   7870025388565404937752024049305755058176,
   307422866740836087820913154458287865856,
   5988757144302018855475331953181327360,
   70581780629269593538771828525236224,
   558905502721137912974747285585920,
   3181270160502094505893578145792,
   13649614539154381489938890752,
   45737344392299718018859008,
   123017701088541689249792,
   271472162465176879104,
   500423385021415424,
   781831879786496,
   1052947021824,
   1187641344,
   1486464,
   112,
   3]

theorem pLow_poly (w : ℝ) : pLow (w / 16 - 2) * scale = poly pPowers w := by
  unfold pLow
  extract_lets x0 x1 x2 x3 x4 x5 x6 x7 x8 x9 x10 x11 x12 x13 x14 x15 x16 x17
  have h0 : x0 = (3 / 25000000000000000000) := by
    show 0.00000000000000000012 = _
    norm_num
  have h1 : x1 = (109 / 25000000000000000000) + (3 / 400000000000000000000) * w := by
    show (w / 16 - 2) * x0 + 0.00000000000000000460 = _
    rw [h0]; ring
  have h2 : x2 = (15427 / 50000000000000000000) + (103 / 400000000000000000000) * w + (3 / 6400000000000000000000) * w ^ 2 := by
    show (w / 16 - 2) * x1 - x0 + 0.00000000000000031738 = _
    rw [h1, h0]; ring
  have h3 : x3 = (971141 / 50000000000000000000) + (15009 / 800000000000000000000) * w + (97 / 6400000000000000000000) * w ^ 2 + (3 / 102400000000000000000000) * w ^ 3 := by
    show (w / 16 - 2) * x2 - x1 + 0.00000000000002004426 = _
    rw [h2, h1]; ring
  have h4 : x4 = (13442507 / 12500000000000000000) + (940917 / 800000000000000000000) * w + (2923 / 2560000000000000000000) * w ^ 2 + (91 / 102400000000000000000000) * w ^ 3 + (3 / 1638400000000000000000000) * w ^ 4 := by
    show (w / 16 - 2) * x3 - x2 + 0.00000000000111455474 = _
    rw [h3, h2]; ring
  have h5 : x5 = (103808771 / 2000000000000000000) + (10374637 / 160000000000000000000) * w + (911493 / 12800000000000000000000) * w ^ 2 + (2849 / 40960000000000000000000) * w ^ 3 + (17 / 327680000000000000000000) * w ^ 4 + (3 / 26214400000000000000000000) * w ^ 5 := by
    show (w / 16 - 2) * x4 - x3 + 0.00000000005407460944 = _
    rw [h4, h3]; ring
  have h6 : x6 = (108116797317 / 50000000000000000000) + (622632997 / 200000000000000000000) * w + (390903 / 100000000000000000000) * w ^ 2 + (882821 / 204800000000000000000000) * w ^ 3 + (13899 / 3276800000000000000000000) * w ^ 4 + (79 / 26214400000000000000000000) * w ^ 5 + (3 / 419430400000000000000000000) * w ^ 6 := by
    show (w / 16 - 2) * x5 - x4 + 0.00000000226722011790 = _
    rw [h5, h4]; ring
  have h7 : x7 = (3843736371913 / 50000000000000000000) + (25770965039 / 200000000000000000000) * w + (2389549327 / 12800000000000000000000) * w ^ 2 + (48255697 / 204800000000000000000000) * w ^ 3 + (854853 / 3276800000000000000000000) * w ^ 4 + (13577 / 52428800000000000000000000) * w ^ 5 + (73 / 419430400000000000000000000) * w ^ 6 + (3 / 6710886400000000000000000000) * w ^ 7 := by
    show (w / 16 - 2) * x6 - x5 + 0.00000008125130371644 = _
    rw [h6, h5]; ring
  have h8 : x8 = (115080097436463 / 50000000000000000000) + (3635078119613 / 800000000000000000000) * w + (49127362959 / 6400000000000000000000) * w ^ 2 + (286519389 / 25600000000000000000000) * w ^ 3 + (11633023 / 819200000000000000000000) * w ^ 4 + (827541 / 52428800000000000000000000) * w ^ 5 + (13279 / 838860800000000000000000000) * w ^ 6 + (67 / 6710886400000000000000000000) * w ^ 7 + (3 / 107374182400000000000000000000) * w ^ 8 := by
    show (w / 16 - 2) * x7 - x6 + 0.00000245751373955212 = _
    rw [h7, h6]; ring
  have h9 : x9 = (2856624125670031 / 50000000000000000000) + (107706857337081 / 800000000000000000000) * w + (68723582369 / 256000000000000000000) * w ^ 2 + (93622159997 / 204800000000000000000000) * w ^ 3 + (87929443 / 131072000000000000000000) * w ^ 4 + (44863433 / 52428800000000000000000000) * w ^ 5 + (800837 / 838860800000000000000000000) * w ^ 6 + (2601 / 2684354560000000000000000000) * w ^ 7 + (61 / 107374182400000000000000000000) * w ^ 8 + (3 / 1717986918400000000000000000000) * w ^ 9 := by
    show (w / 16 - 2) * x8 - x7 + 0.00006181256113829740 = _
    rw [h8, h7]; ring
  have h10 : x10 = (721310782850679 / 625000000000000000) + (82424229152383 / 25000000000000000000) * w + (100736244374263 / 12800000000000000000000) * w ^ 2 + (202915165209 / 12800000000000000000000) * w ^ 3 + (17835831151 / 655360000000000000000000) * w ^ 4 + (526920417 / 13107200000000000000000000) * w ^ 5 + (270303 / 5242880000000000000000000) * w ^ 6 + (774693 / 13421772800000000000000000000) * w ^ 7 + (2551 / 42949672960000000000000000000) * w ^ 8 + (11 / 343597383680000000000000000000) * w ^ 9 + (3 / 27487790694400000000000000000000) * w ^ 10 := by
    show (w / 16 - 2) * x9 - x8 + 0.00127066381953661690 = _
    rw [h9, h8]; ring
  have h11 : x11 = (115917756271944371 / 6250000000000000000) + (52322005104964727 / 800000000000000000000) * w + (3801041664077 / 20000000000000000000) * w ^ 2 + (47074668463789 / 102400000000000000000000) * w ^ 3 + (3066086095759 / 3276800000000000000000000) * w ^ 4 + (42459464493 / 26214400000000000000000000) * w ^ 5 + (2020383871 / 838860800000000000000000000) * w ^ 6 + (41686089 / 13421772800000000000000000000) * w ^ 7 + (749061 / 214748364800000000000000000000) * w ^ 8 + (12529 / 3435973836800000000000000000000) * w ^ 9 + (49 / 27487790694400000000000000000000) * w ^ 10 + (3 / 439804651110400000000000000000000) * w ^ 11 := by
    show (w / 16 - 2) * x10 - x9 + 0.02091216799114667278 = _
    rw [h10, h9]; ring
  have h12 : x12 = (11527784066103099001 / 50000000000000000000) + (410030232316374629 / 400000000000000000000) * w + (369968246332593 / 100000000000000000000) * w ^ 2 + (112056067425539 / 10240000000000000000000) * w ^ 3 + (17585597116061 / 655360000000000000000000) * w ^ 4 + (2894140556119 / 52428800000000000000000000) * w ^ 5 + (20208728191 / 209715200000000000000000000) * w ^ 6 + (1936237 / 13421772800000000000000000) * w ^ 7 + (10043803 / 53687091200000000000000000000) * w ^ 8 + (723893 / 3435973836800000000000000000000) * w ^ 9 + (12327 / 54975581388800000000000000000000) * w ^ 10 + (43 / 439804651110400000000000000000000) * w ^ 11 + (3 / 7036874417766400000000000000000000) * w ^ 12 := by
    show (w / 16 - 2) * x11 - x10 + 0.26880346058164526514 = _
    rw [h11, h10]; ring
  have h13 : x13 = (106968181715049353939 / 50000000000000000000) + (4917670565866317879 / 400000000000000000000) * w + (72291592690659617 / 1280000000000000000000) * w ^ 2 + (21389771748311383 / 102400000000000000000000) * w ^ 3 + (2062199291254411 / 3276800000000000000000000) * w ^ 4 + (82054785539081 / 52428800000000000000000000) * w ^ 5 + (17065314667 / 5242880000000000000000000) * w ^ 6 + (3076830107 / 536870912000000000000000000) * w ^ 7 + (371027503 / 42949672960000000000000000000) * w ^ 8 + (38714897 / 3435973836800000000000000000000) * w ^ 9 + (699141 / 54975581388800000000000000000000) * w ^ 10 + (12149 / 879609302220800000000000000000000) * w ^ 11 + (37 / 7036874417766400000000000000000000) * w ^ 12 + (3 / 112589990684262400000000000000000000) * w ^ 13 := by
    show (w / 16 - 2) * x12 - x11 + 2.61902183794862213818 = _
    rw [h12, h11]; ring
  have h14 : x14 = (17679032523412658033 / 1250000000000000000) + (17295487797390266633 / 160000000000000000000) * w + (4171076671194435757 / 6400000000000000000000) * w ^ 2 + (317557859282419929 / 102400000000000000000000) * w ^ 3 + (38567216928533639 / 3276800000000000000000000) * w ^ 4 + (189519557962013 / 5242880000000000000000000) * w ^ 5 + (76513049932877 / 838860800000000000000000000) * w ^ 6 + (257467260437 / 1342177280000000000000000000) * w ^ 7 + (73170302433 / 214748364800000000000000000000) * w ^ 8 + (444245957 / 858993459200000000000000000000) * w ^ 9 + (1165759 / 1717986918400000000000000000000) * w ^ 10 + (674757 / 879609302220800000000000000000000) * w ^ 11 + (2399 / 2814749767106560000000000000000000) * w ^ 12 + (31 / 112589990684262400000000000000000000) * w ^ 13 + (3 / 1801439850948198400000000000000000000) * w ^ 14 := by
    show (w / 16 - 2) * x13 - x12 + 18.65250896865416256398 = _
    rw [h13, h12]; ring
  have h15 : x15 = (625265109874658354893 / 10000000000000000000) + (16386596307214719351 / 25000000000000000000) * w + (69070216375266993967 / 12800000000000000000000) * w ^ 2 + (878642795220321129 / 25600000000000000000000) * w ^ 3 + (555919085416518169 / 3276800000000000000000000) * w ^ 4 + (17347385491877149 / 26214400000000000000000000) * w ^ 5 + (217429878675957 / 104857600000000000000000000) * w ^ 6 + (35643391985731 / 6710886400000000000000000000) * w ^ 7 + (2426476861989 / 214748364800000000000000000000) * w ^ 8 + (1739440497 / 85899345920000000000000000000) * w ^ 9 + (1701676111 / 54975581388800000000000000000000) * w ^ 10 + (287541 / 7036874417766400000000000000000) * w ^ 11 + (650693 / 14073748835532800000000000000000000) * w ^ 12 + (2373 / 45035996273704960000000000000000000) * w ^ 13 + (1 / 72057594037927936000000000000000000) * w ^ 14 + (3 / 28823037615171174400000000000000000000) * w ^ 15 := by
    show (w / 16 - 2) * x14 - x13 + 92.95232665922707542088 = _
    rw [h14, h13]; ring
  have h16 : x16 = (8448147306882703145021 / 50000000000000000000) + (497776486681149600709 / 200000000000000000000) * w + (47236061967243519973 / 1600000000000000000000) * w ^ 2 + (10875363186635403209 / 40960000000000000000000) * w ^ 3 + (1175747394800199811 / 655360000000000000000000) * w ^ 4 + (484634347869389443 / 52428800000000000000000000) * w ^ 5 + (31139379875006109 / 838860800000000000000000000) * w ^ 6 + (797145394430181 / 6710886400000000000000000000) * w ^ 7 + (66360659945051 / 214748364800000000000000000000) * w ^ 8 + (2285544638401 / 3435973836800000000000000000000) * w ^ 9 + (6613696337 / 5497558138880000000000000000000) * w ^ 10 + (203639513 / 109951162777600000000000000000000) * w ^ 11 + (8657311 / 3518437208883200000000000000000000) * w ^ 12 + (626901 / 225179981368524800000000000000000000) * w ^ 13 + (11759 / 3602879701896396800000000000000000000) * w ^ 14 + (19 / 28823037615171174400000000000000000000) * w ^ 15 + (3 / 461168601842738790400000000000000000000) * w ^ 16 := by
    show (w / 16 - 2) * x15 - x14 + 308.15919413131586030542 = _
    rw [h15, h14]; ring
  have h17 : x17 = (244417393319588255717 / 1000000000000000000) + (3941564331602635320117 / 800000000000000000000) * w + (1166258738873435089301 / 12800000000000000000000) * w ^ 2 + (131052860754915779331 / 102400000000000000000000) * w ^ 3 + (21031711449879249883 / 1638400000000000000000000) * w ^ 4 + (4874773507278465871 / 52428800000000000000000000) * w ^ 5 + (420616149089969569 / 838860800000000000000000000) * w ^ 6 + (27879511513313923 / 13421772800000000000000000000) * w ^ 7 + (1459142992108271 / 214748364800000000000000000000) * w ^ 8 + (61719993048369 / 3435973836800000000000000000000) * w ^ 9 + (43031380711 / 1099511627776000000000000000000) * w ^ 10 + (62842788537 / 879609302220800000000000000000000) * w ^ 11 + (1559206923 / 14073748835532800000000000000000000) * w ^ 12 + (33363577 / 225179981368524800000000000000000000) * w ^ 13 + (603333 / 3602879701896396800000000000000000000) * w ^ 14 + (11677 / 57646075230342348800000000000000000000) * w ^ 15 + (13 / 461168601842738790400000000000000000000) * w ^ 16 + (3 / 7378697629483820646400000000000000000000) * w ^ 17 := by
    show (w / 16 - 2) * x16 - x15 + 644.86979658236221700714 = _
    rw [h16, h15]; ring
  rw [h17, h16]
  simp only [poly, pPowers, scale]
  push_cast
  ring

/-- Coefficients of powers, as whole numbers. -/
def qPowers : List ℤ :=
  [-11805916207174113034240,
   18536610233494117379070036611835050852352,
   993032691080041961331070367901593632768,
   23697371037137383548413985129523838976,
   325513338422212003441772548071620608,
   2917054273545427034282411652284416,
   18423500674935643473414212026368,
   86473940922006670622244995072,
   313586818312621365221392384,
   905134384756254423646208,
   2129011703560015970304,
   4159639958165913600,
   6858000383868928,
   9675038523392,
   11746738176,
   12949504,
   9792,
   16]

theorem qLow_poly (w : ℝ) : qLow (w / 16 - 2) * scale = poly qPowers w := by
  unfold qLow
  extract_lets x0 x1 x2 x3 x4 x5 x6 x7 x8 x9 x10 x11 x12 x13 x14 x15 x16
  have h0 : x0 = (1 / 25000000000000000000) := by
    show 0.00000000000000000004 = _
    norm_num
  have h1 : x1 = (281 / 100000000000000000000) + (1 / 400000000000000000000) * w := by
    show (w / 16 - 2) * x0 + 0.00000000000000000289 = _
    rw [h0]; ring
  have h2 : x2 = (961 / 5000000000000000000) + (273 / 1600000000000000000000) * w + (1 / 6400000000000000000000) * w ^ 2 := by
    show (w / 16 - 2) * x1 - x0 + 0.00000000000000019786 = _
    rw [h1, h0]; ring
  have h3 : x3 = (1157447 / 100000000000000000000) + (1867 / 160000000000000000000) * w + (53 / 5120000000000000000000) * w ^ 2 + (1 / 102400000000000000000000) * w ^ 3 := by
    show (w / 16 - 2) * x2 - x1 + 0.00000000000001196168 = _
    rw [h2, h1]; ring
  have h4 : x4 = (12218723 / 20000000000000000000) + (559917 / 800000000000000000000) * w + (2267 / 3200000000000000000000) * w ^ 2 + (257 / 409600000000000000000000) * w ^ 3 + (1 / 1638400000000000000000000) * w ^ 4 := by
    show (w / 16 - 2) * x3 - x2 + 0.00000000000063427729 = _
    rw [h3, h2]; ring
  have h5 : x5 = (700072751 / 25000000000000000000) + (58835277 / 1600000000000000000000) * w + (1083297 / 25600000000000000000000) * w ^ 2 + (8809 / 204800000000000000000000) * w ^ 3 + (249 / 6553600000000000000000000) * w ^ 4 + (1 / 26214400000000000000000000) * w ^ 5 := by
    show (w / 16 - 2) * x4 - x3 + 0.00000000002923635681 = _
    rw [h4, h3]; ring
  have h6 : x6 = (110289997183 / 100000000000000000000) + (335187577 / 200000000000000000000) * w + (56650547 / 25600000000000000000000) * w ^ 2 + (261951 / 102400000000000000000000) * w ^ 3 + (4279 / 1638400000000000000000000) * w ^ 4 + (241 / 104857600000000000000000000) * w ^ 5 + (1 / 419430400000000000000000000) * w ^ 6 := by
    show (w / 16 - 2) * x5 - x4 + 0.00000000115951672806 = _
    rw [h5, h4]; ring
  have h7 : x7 = (1843467231437 / 50000000000000000000) + (52434080337 / 800000000000000000000) * w + (102684649 / 1024000000000000000000) * w ^ 2 + (54537321 / 409600000000000000000000) * w ^ 3 + (1013323 / 6553600000000000000000000) * w ^ 4 + (1663 / 10485760000000000000000000) * w ^ 5 + (233 / 1677721600000000000000000000) * w ^ 6 + (1 / 6710886400000000000000000000) * w ^ 7 := by
    show (w / 16 - 2) * x6 - x5 + 0.00000003910314748244 = _
    rw [h6, h5]; ring
  have h8 : x8 = (12889428233931 / 12500000000000000000) + (347451664091 / 160000000000000000000) * w + (99677277677 / 25600000000000000000000) * w ^ 2 + (2456993779 / 409600000000000000000000) * w ^ 3 + (52493559 / 6553600000000000000000000) * w ^ 4 + (489911 / 52428800000000000000000000) * w ^ 5 + (101 / 10485760000000000000000000) * w ^ 6 + (9 / 1073741824000000000000000000) * w ^ 7 + (1 / 107374182400000000000000000000) * w ^ 8 := by
    show (w / 16 - 2) * x7 - x6 + 0.00000110599584794379 = _
    rw [h7, h6]; ring
  have h9 : x9 = (296441706689441 / 12500000000000000000) + (48030762214477 / 800000000000000000000) * w + (3272594969331 / 25600000000000000000000) * w ^ 2 + (47354376399 / 204800000000000000000000) * w ^ 3 + (1175496669 / 3276800000000000000000000) * w ^ 4 + (10103457 / 20971520000000000000000000) * w ^ 5 + (947269 / 1677721600000000000000000000) * w ^ 6 + (7853 / 13421772800000000000000000000) * w ^ 7 + (217 / 429496729600000000000000000000) * w ^ 8 + (1 / 1717986918400000000000000000000) * w ^ 9 := by
    show (w / 16 - 2) * x8 - x7 + 0.00002581451439721298 = _
    rw [h8, h7]; ring
  have h10 : x10 = (43922510183338179 / 100000000000000000000) + (217593608801671 / 160000000000000000000) * w + (17883331442523 / 5120000000000000000000) * w ^ 2 + (770180117489 / 102400000000000000000000) * w ^ 3 + (89954272563 / 6553600000000000000000000) * w ^ 4 + (1124489473 / 52428800000000000000000000) * w ^ 5 + (48606587 / 1677721600000000000000000000) * w ^ 6 + (57227 / 1677721600000000000000000000) * w ^ 7 + (3817 / 107374182400000000000000000000) * w ^ 8 + (209 / 6871947673600000000000000000000) * w ^ 9 + (1 / 27487790694400000000000000000000) * w ^ 10 := by
    show (w / 16 - 2) * x9 - x8 + 0.00048768692916240683 = _
    rw [h9, h8]; ring
  have h11 : x11 = (638239641483313037 / 100000000000000000000) + (7894915296575161 / 320000000000000000000) * w + (1993830178622149 / 25600000000000000000000) * w ^ 2 + (16632101503981 / 81920000000000000000000) * w ^ 3 + (724615232873 / 1638400000000000000000000) * w ^ 4 + (42702898693 / 52428800000000000000000000) * w ^ 5 + (2150818503 / 1677721600000000000000000000) * w ^ 6 + (46759617 / 26843545600000000000000000000) * w ^ 7 + (884879 / 429496729600000000000000000000) * w ^ 8 + (7423 / 3435973836800000000000000000000) * w ^ 9 + (201 / 109951162777600000000000000000000) * w ^ 10 + (1 / 439804651110400000000000000000000) * w ^ 11 := by
    show (w / 16 - 2) * x10 - x9 + 0.00728456195503504923 = _
    rw [h10, h9]; ring
  have h12 : x12 = (87969170882132169 / 1250000000000000000) + (557114552429544717 / 1600000000000000000000) * w + (8849374867104723 / 6400000000000000000000) * w ^ 2 + (1824428443112383 / 409600000000000000000000) * w ^ 3 + (38636815692179 / 3276800000000000000000000) * w ^ 4 + (1362700178887 / 52428800000000000000000000) * w ^ 5 + (81055553793 / 1677721600000000000000000000) * w ^ 6 + (2056383637 / 26843545600000000000000000000) * w ^ 7 + (44974591 / 429496729600000000000000000000) * w ^ 8 + (427489 / 3435973836800000000000000000000) * w ^ 9 + (361 / 2748779069440000000000000000000) * w ^ 10 + (193 / 1759218604441600000000000000000000) * w ^ 11 + (1 / 7036874417766400000000000000000000) * w ^ 12 := by
    show (w / 16 - 2) * x11 - x10 + 0.08357935463720537773 = _
    rw [h11, h10]; ring
  have h13 : x13 = (56318054216594427437 / 100000000000000000000) + (5883829989228608281 / 1600000000000000000000) * w + (30270357707130299 / 1600000000000000000000) * w ^ 2 + (31665482074674221 / 409600000000000000000000) * w ^ 3 + (66679308776487 / 262144000000000000000000) * w ^ 4 + (547313117 / 800000000000000000000) * w ^ 5 + (512227686337 / 335544320000000000000000000) * w ^ 6 + (38448013451 / 13421772800000000000000000000) * w ^ 7 + (245693697 / 53687091200000000000000000000) * w ^ 8 + (43249789 / 6871947673600000000000000000000) * w ^ 9 + (825897 / 109951162777600000000000000000000) * w ^ 10 + (281 / 35184372088832000000000000000000) * w ^ 11 + (37 / 5629499534213120000000000000000000) * w ^ 12 + (1 / 112589990684262400000000000000000000) * w ^ 13 := by
    show (w / 16 - 2) * x12 - x11 + 0.71031361199218887514 = _
    rw [h12, h11]; ring
  have h14 : x14 = (307106619161732836443 / 100000000000000000000) + (21996639842853833079 / 800000000000000000000) * w + (4879781043132019821 / 25600000000000000000000) * w ^ 2 + (419170330721623959 / 409600000000000000000000) * w ^ 3 + (28254243004465513 / 6553600000000000000000000) * w ^ 4 + (1520782469311553 / 104857600000000000000000000) * w ^ 5 + (66534092454261 / 1677721600000000000000000000) * w ^ 6 + (601322498561 / 6710886400000000000000000000) * w ^ 7 + (72919953159 / 429496729600000000000000000000) * w ^ 8 + (93909751 / 343597383680000000000000000000) * w ^ 9 + (8316711 / 21990232555520000000000000000000) * w ^ 10 + (199401 / 439804651110400000000000000000000) * w ^ 11 + (3419 / 7036874417766400000000000000000000) * w ^ 12 + (177 / 450359962737049600000000000000000000) * w ^ 13 + (1 / 1801439850948198400000000000000000000) * w ^ 14 := by
    show (w / 16 - 2) * x13 - x12 + 4.26780261265492264837 = _
    rw [h13, h12]; ring
  have h15 : x15 = (258752373313790446357 / 25000000000000000000) + (106618114900544447923 / 800000000000000000000) * w + (8437347969032385433 / 6400000000000000000000) * w ^ 2 + (2004887449807048841 / 204800000000000000000000) * w ^ 3 + (180497430996640379 / 3276800000000000000000000) * w ^ 4 + (25140940640970983 / 104857600000000000000000000) * w ^ 5 + (692576572985673 / 838860800000000000000000000) * w ^ 6 + (61646616438871 / 26843545600000000000000000000) * w ^ 7 + (45149690767 / 8589934592000000000000000000) * w ^ 8 + (6912031333 / 687194767360000000000000000000) * w ^ 9 + (1794202013 / 109951162777600000000000000000000) * w ^ 10 + (39974297 / 1759218604441600000000000000000000) * w ^ 11 + (770067 / 28147497671065600000000000000000000) * w ^ 12 + (6659 / 225179981368524800000000000000000000) * w ^ 13 + (169 / 7205759403792793600000000000000000000) * w ^ 14 + (1 / 28823037615171174400000000000000000000) * w ^ 15 := by
    show (w / 16 - 2) * x14 - x13 + 17.05540785795221885751 = _
    rw [h14, h13]; ring
  have h16 : x16 = (1806777881107622392741 / 100000000000000000000) + (282271876983638163789 / 800000000000000000000) * w + (140857665005697792561 / 25600000000000000000000) * w ^ 2 + (25310671746179722409 / 409600000000000000000000) * w ^ 3 + (3259530932623070653 / 6553600000000000000000000) * w ^ 4 + (309192198242027239 / 104857600000000000000000000) * w ^ 5 + (2230410025657403 / 167772160000000000000000000) * w ^ 6 + (7871591394371 / 167772160000000000000000000) * w ^ 7 + (14264681852253 / 107374182400000000000000000000) * w ^ 8 + (211736571667 / 687194767360000000000000000000) * w ^ 9 + (65490325749 / 109951162777600000000000000000000) * w ^ 10 + (342691163 / 351843720888320000000000000000000) * w ^ 11 + (38420487 / 28147497671065600000000000000000000) * w ^ 12 + (371627 / 225179981368524800000000000000000000) * w ^ 13 + (811 / 450359962737049600000000000000000000) * w ^ 14 + (161 / 115292150460684697600000000000000000000) * w ^ 15 + (1 / 461168601842738790400000000000000000000) * w ^ 16 := by
    show (w / 16 - 2) * x15 - x14 + 41.83903486779678800040 = _
    rw [h15, h14]; ring
  rw [h16, h15]
  simp only [poly, qPowers, scale]
  push_cast
  ring

end Verif.Photon

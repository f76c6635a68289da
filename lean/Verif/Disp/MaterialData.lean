/-! # The dispersion curves distributed in /repo/refellips/materials (generated, all rows)

Each number `x` of a column is stored as the natural number `x * 10 ^ d` with one `d` per column, so
the decimals of the csv files are represented exactly.  The order of the list is alphabetical; the
code takes the order of `glob`, which is irrelevant for membership. -/

namespace Verif.Disp

set_option maxRecDepth 10000

/-- One csv file: name, decimals per column, whether the third column exists, rows. -/
structure RawMaterial where
  name : String
  dw : Nat
  dn : Nat
  dk : Nat
  hasK : Bool
  rows : List (Nat × Nat × Nat)

/-- refellips/materials/air.csv, 101 rows. -/
def airRaw : RawMaterial where
  name := "air"
  dw := 4
  dn := 9
  dk := 0
  hasK := false
  rows :=
    [
    (2300, 1000308003, 0), (2446, 1000303036, 0), (2592, 1000299110, 0), (2738, 1000295938, 0),
    (2884, 1000293329, 0), (3030, 1000291152, 0), (3176, 1000289313, 0), (3322, 1000287743, 0),
    (3468, 1000286391, 0), (3614, 1000285217, 0), (3760, 1000284191, 0), (3906, 1000283287, 0),
    (4052, 1000282488, 0), (4198, 1000281777, 0), (4344, 1000281141, 0), (4490, 1000280570, 0),
    (4636, 1000280056, 0), (4782, 1000279590, 0), (4928, 1000279168, 0), (5074, 1000278783, 0),
    (5220, 1000278432, 0), (5366, 1000278110, 0), (5512, 1000277814, 0), (5658, 1000277542, 0),
    (5804, 1000277291, 0), (5950, 1000277059, 0), (6096, 1000276844, 0), (6242, 1000276644, 0),
    (6388, 1000276458, 0), (6534, 1000276285, 0), (6680, 1000276123, 0), (6826, 1000275972, 0),
    (6972, 1000275831, 0), (7118, 1000275698, 0), (7264, 1000275573, 0), (7410, 1000275456, 0),
    (7556, 1000275346, 0), (7702, 1000275242, 0), (7848, 1000275144, 0), (7994, 1000275051, 0),
    (8140, 1000274964, 0), (8286, 1000274881, 0), (8432, 1000274802, 0), (8578, 1000274728, 0),
    (8724, 1000274657, 0), (8870, 1000274590, 0), (9016, 1000274526, 0), (9162, 1000274465, 0),
    (9308, 1000274407, 0), (9454, 1000274352, 0), (9600, 1000274299, 0), (9746, 1000274249, 0),
    (9892, 1000274200, 0), (10040, 1000274154, 0), (10180, 1000274111, 0), (10330, 1000274068, 0),
    (10480, 1000274027, 0), (10620, 1000273990, 0), (10770, 1000273951, 0), (10910, 1000273917, 0),
    (11060, 1000273882, 0), (11210, 1000273848, 0), (11350, 1000273818, 0), (11500, 1000273787, 0),
    (11640, 1000273759, 0), (11790, 1000273730, 0), (11940, 1000273702, 0), (12080, 1000273677, 0),
    (12230, 1000273651, 0), (12370, 1000273627, 0), (12520, 1000273603, 0), (12670, 1000273580, 0),
    (12810, 1000273559, 0), (12960, 1000273537, 0), (13100, 1000273518, 0), (13250, 1000273497, 0),
    (13400, 1000273478, 0), (13540, 1000273460, 0), (13690, 1000273442, 0), (13830, 1000273425, 0),
    (13980, 1000273408, 0), (14130, 1000273391, 0), (14270, 1000273376, 0), (14420, 1000273360, 0),
    (14560, 1000273346, 0), (14710, 1000273331, 0), (14860, 1000273317, 0), (15000, 1000273304, 0),
    (15150, 1000273290, 0), (15290, 1000273278, 0), (15440, 1000273265, 0), (15590, 1000273253, 0),
    (15730, 1000273242, 0), (15880, 1000273230, 0), (16020, 1000273219, 0), (16170, 1000273208, 0),
    (16320, 1000273197, 0), (16460, 1000273188, 0), (16610, 1000273177, 0),
    (16750, 1000273168, 0)] ++ [ (16900, 1000273158, 0)]

/-- refellips/materials/aluminium_oxide.csv, 550 rows. -/
def aluminiumOxideRaw : RawMaterial where
  name := "aluminium_oxide"
  dw := 4
  dn := 3
  dk := 3
  hasK := true
  rows :=
    [
    (2100, 240, 1976), (2200, 223, 2084), (2300, 217, 2199), (2400, 215, 2315), (2500, 217, 2433),
    (2600, 223, 2549), (2700, 231, 2665), (2800, 242, 2778), (2900, 252, 2891), (3000, 263, 3003),
    (3100, 276, 3114), (3200, 287, 3224), (3300, 301, 3336), (3400, 312, 3445), (3500, 329, 3557),
    (3600, 343, 3667), (3700, 359, 3779), (3800, 378, 3891), (3900, 400, 4001), (4000, 420, 4108),
    (4100, 442, 4216), (4200, 463, 4322), (4300, 485, 4429), (4400, 508, 4536), (4500, 531, 4643),
    (4600, 557, 4750), (4700, 584, 4856), (4800, 612, 4960), (4900, 639, 5064), (5000, 668, 5168),
    (5100, 698, 5272), (5200, 729, 5375), (5300, 762, 5476), (5400, 796, 5577), (5500, 830, 5676),
    (5600, 864, 5776), (5700, 899, 5876), (5800, 936, 5976), (5900, 977, 6075), (6000, 1019, 6173),
    (6100, 1062, 6268), (6200, 1106, 6363), (6300, 1153, 6457), (6400, 1203, 6551),
    (6500, 1258, 6641), (6600, 1314, 6726), (6700, 1370, 6808), (6800, 1427, 6889),
    (6900, 1488, 6966), (7000, 1551, 7041), (7100, 1618, 7111), (7200, 1687, 7174),
    (7300, 1759, 7232), (7400, 1833, 7282), (7500, 1910, 7324), (7600, 1990, 7352),
    (7700, 2068, 7365), (7800, 2139, 7359), (7900, 2198, 7339), (8000, 2239, 7306),
    (8101, 2262, 7264), (8200, 2262, 7214), (8300, 2234, 7166), (8400, 2180, 7127),
    (8500, 2104, 7107), (8600, 2014, 7107), (8700, 1918, 7131), (8800, 1820, 7175),
    (8900, 1727, 7238), (9000, 1640, 7316), (9100, 1560, 7405), (9200, 1489, 7502),
    (9300, 1427, 7607), (9400, 1373, 7715), (9500, 1326, 7826), (9600, 1285, 7939),
    (9700, 1250, 8051), (9800, 1220, 8165), (9900, 1194, 8277), (10000, 1171, 8389),
    (10100, 1151, 8500), (10200, 1132, 8614), (10300, 1117, 8726), (10400, 1103, 8839),
    (10500, 1093, 8951), (10600, 1085, 9063), (10700, 1077, 9174), (10800, 1072, 9294),
    (10900, 1069, 9395), (11000, 1068, 9505), (11100, 1068, 9614), (11200, 1070, 9722),
    (11300, 1072, 9828), (11400, 1075, 9933), (11500, 1080, 10037), (11600, 1083, 10141),
    (11700, 1085, 10243), (11800, 1087, 10346), (11900, 1088, 10449), (12000, 1091, 10553)] ++ [
    (12100, 1091, 10661), (12200, 1098, 10769), (12300, 1105, 10876), (12400, 1114, 10982),
    (12500, 1122, 11086), (12600, 1130, 11191), (12700, 1139, 11297), (12800, 1150, 11403),
    (12900, 1164, 11508), (13000, 1178, 11611), (13100, 1193, 11712), (13200, 1206, 11812),
    (13300, 1219, 11911), (13400, 1231, 12010), (13500, 1244, 12110), (13600, 1255, 12209),
    (13700, 1265, 12310), (13800, 1278, 12410), (13900, 1291, 12513), (14000, 1303, 12615),
    (14100, 1320, 12716), (14200, 1334, 12815), (14300, 1348, 12915), (14400, 1363, 13015),
    (14500, 1375, 13117), (14600, 1391, 13218), (14700, 1408, 13320), (14800, 1425, 13423),
    (14900, 1442, 13523), (15000, 1464, 13624), (15100, 1483, 13723), (15200, 1504, 13820),
    (15300, 1520, 13916), (15400, 1533, 14013), (15500, 1550, 14116), (15600, 1565, 14217),
    (15700, 1588, 14323), (15800, 1616, 14421), (15900, 1638, 14518), (16000, 1660, 14616),
    (16100, 1683, 14712), (16200, 1705, 14809), (16300, 1727, 14905), (16400, 1750, 15002),
    (16500, 1773, 15097), (16600, 1795, 15193), (16700, 1818, 15288), (16800, 1841, 15383),
    (16900, 1864, 15478), (17000, 1887, 15573), (17100, 1910, 15668), (17200, 1934, 15762),
    (17300, 1957, 15856), (17400, 1981, 15950), (17500, 2004, 16044), (17600, 2028, 16137),
    (17700, 2052, 16231), (17800, 2076, 16324), (17900, 2100, 16417), (18000, 2124, 16510),
    (18100, 2148, 16602), (18200, 2172, 16693), (18300, 2193, 16788), (18400, 2218, 16881),
    (18500, 2243, 16974), (18600, 2268, 17067), (18700, 2293, 17159), (18800, 2318, 17252),
    (18900, 2343, 17344), (19000, 2368, 17436), (19100, 2394, 17528), (19200, 2419, 17619),
    (19300, 2445, 17711), (19400, 2471, 17802), (19500, 2496, 17894), (19600, 2522, 17985),
    (19700, 2548, 18076), (19800, 2575, 18167), (19900, 2601, 18258), (20000, 2627, 18349),
    (20100, 2654, 18439), (20200, 2680, 18530), (20300, 2707, 18620), (20400, 2734, 18710),
    (20500, 2761, 18800), (20600, 2788, 18890), (20700, 2815, 18980), (20800, 2842, 19070),
    (20900, 2869, 19160), (21000, 2897, 19249), (21100, 2924, 19339), (21200, 2952, 19428),
    (21300, 2980, 19517), (21400, 3008, 19607), (21500, 3036, 19696), (21600, 3064, 19784),
    (21700, 3092, 19873), (21800, 3120, 19962), (21900, 3148, 20050), (22000, 3177, 20139)] ++ [
    (22100, 3205, 20227), (22200, 3234, 20315), (22300, 3263, 20403), (22400, 3292, 20491),
    (22500, 3320, 20578), (22600, 3349, 20665), (22700, 3378, 20752), (22800, 3406, 20835),
    (22900, 3431, 20929), (23000, 3461, 21018), (23100, 3491, 21106), (23200, 3521, 21193),
    (23300, 3551, 21281), (23400, 3581, 21368), (23500, 3611, 21455), (23600, 3641, 21543),
    (23700, 3671, 21629), (23800, 3702, 21716), (23900, 3732, 21803), (24000, 3762, 21889),
    (24100, 3793, 21975), (24200, 3824, 22062), (24300, 3854, 22148), (24400, 3885, 22233),
    (24500, 3916, 22319), (24600, 3947, 22404), (24700, 3978, 22490), (24800, 4009, 22574),
    (24900, 4040, 22658), (25000, 4063, 22742), (25063, 4084, 22799), (25126, 4105, 22854),
    (25189, 4125, 22909), (25253, 4145, 22963), (25316, 4165, 23018), (25381, 4186, 23073),
    (25445, 4207, 23128), (25510, 4227, 23183), (25575, 4248, 23230), (25641, 4269, 23294),
    (25707, 4290, 23350), (25773, 4312, 23406), (25840, 4333, 23462), (25907, 4355, 23518),
    (25974, 4376, 23575), (26042, 4398, 23631), (26110, 4420, 23688), (26178, 4442, 23745),
    (26247, 4464, 23802), (26316, 4486, 23859), (26385, 4508, 23916), (26455, 4530, 23971),
    (26525, 4545, 24032), (26596, 4569, 24093), (26667, 4593, 24153), (26738, 4616, 24213),
    (26810, 4640, 24272), (26882, 4663, 24331), (26954, 4686, 24388), (27027, 4702, 24451),
    (27100, 4728, 24514), (27174, 4752, 24575), (27248, 4776, 24634), (27322, 4793, 24699),
    (27397, 4819, 24763), (27473, 4844, 24826), (27548, 4869, 24886), (27624, 4887, 24933),
    (27701, 4914, 25019), (27778, 4940, 25083), (27855, 4965, 25144), (27933, 4984, 25212),
    (28011, 5011, 25280), (28090, 5038, 25343), (28169, 5057, 25413), (28249, 5086, 25483),
    (28329, 5114, 25550), (28409, 5141, 25614), (28490, 5161, 25686), (28571, 5191, 25757),
    (28653, 5220, 25826), (28736, 5248, 25892), (28818, 5269, 25965), (28902, 5300, 26039),
    (28986, 5330, 26110), (29070, 5360, 26181), (29155, 5390, 26251), (29240, 5420, 26320),
    (29326, 5442, 26395), (29412, 5475, 26471), (29499, 5539, 26619), (29499, 5507, 26546),
    (29674, 5571, 26693), (29762, 5603, 26767), (29851, 5636, 26842), (29940, 5669, 26916),
    (30030, 5702, 26991), (30120, 5735, 27066), (30211, 5768, 27142), (30303, 5802, 27218)] ++ [
    (30395, 5836, 27294), (30488, 5871, 27371), (30581, 5905, 27448), (30675, 5940, 27525),
    (30769, 5976, 27603), (30864, 6011, 27682), (30960, 6048, 27762), (31056, 6085, 27844),
    (31153, 6132, 27919), (31250, 6166, 27994), (31348, 6202, 28071), (31447, 6238, 28150),
    (31546, 6276, 28230), (31646, 6313, 28310), (31746, 6351, 28390), (31847, 6389, 28471),
    (31949, 6427, 28552), (32051, 6466, 28634), (32154, 6505, 28716), (32258, 6545, 28799),
    (32362, 6585, 28882), (32468, 6625, 28966), (32573, 6665, 29050), (32680, 6706, 29134),
    (32787, 6747, 29219), (32895, 6789, 29304), (33003, 6831, 29390), (33113, 6873, 29476),
    (33223, 6916, 29562), (33333, 6959, 29649), (33445, 7003, 29737), (33557, 7046, 29824),
    (33670, 7091, 29913), (33784, 7135, 30001), (33898, 7180, 30091), (34014, 7225, 30180),
    (34130, 7271, 30270), (34247, 7317, 30360), (34364, 7364, 30451), (34483, 7410, 30542),
    (34602, 7457, 30633), (34722, 7504, 30723), (34843, 7550, 30812), (34965, 7587, 30912),
    (35088, 7639, 31011), (35211, 7690, 31108), (35336, 7741, 31204), (35461, 7792, 31301),
    (35587, 7844, 31398), (35714, 7896, 31495), (35842, 7948, 31593), (35971, 8001, 31691),
    (36101, 8054, 31790), (36232, 8108, 31889), (36364, 8162, 31989), (36496, 8217, 32089),
    (36630, 8272, 32190), (36765, 8328, 32291), (36900, 8384, 32393), (37037, 8441, 32495),
    (37175, 8498, 32597), (37453, 8614, 32804), (37594, 8673, 32908), (37594, 8556, 32700),
    (37736, 8732, 33013), (37879, 8792, 33118), (38023, 8852, 33223), (38168, 8913, 33330),
    (38314, 8975, 33436), (38462, 9037, 33543), (38610, 9099, 33650), (38760, 9162, 33758),
    (38911, 9226, 33866), (39063, 9290, 33975), (39216, 9354, 34083), (39370, 9418, 34191),
    (39526, 9480, 34296), (39683, 9533, 34415), (39841, 9603, 34533), (40000, 9672, 34647),
    (40161, 9741, 34761), (40323, 9810, 34874), (40486, 9879, 34987), (40650, 9946, 35096),
    (40816, 10002, 35220), (40984, 10077, 35341), (41152, 10149, 35457), (41322, 10219, 35569),
    (41494, 10277, 35695), (41667, 10332, 35814), (41841, 10414, 35945), (42017, 10494, 36072),
    (42194, 10569, 36190), (42373, 10631, 36322), (42553, 10711, 36447), (42735, 10777, 36584),
    (42918, 10862, 36715), (43103, 10942, 36838), (43290, 11008, 36975), (43478, 11093, 37104)] ++ [
    (43668, 11162, 37246), (43860, 11250, 37378), (44053, 11322, 37524), (44248, 11415, 37663),
    (44444, 11501, 37792), (44643, 11572, 37933), (44843, 11652, 38089), (45045, 11750, 38235),
    (45249, 11842, 38370), (45455, 11921, 38522), (45662, 12018, 38664), (45872, 12100, 38821),
    (46083, 12201, 38967), (46296, 12287, 39128), (46512, 12394, 39282), (46729, 12496, 39427),
    (46948, 12584, 39590), (47170, 12695, 39747), (47393, 12801, 39895), (47619, 12893, 40063),
    (47847, 13009, 40225), (48077, 13122, 40381), (48309, 13232, 40532), (48544, 13329, 40704),
    (48780, 13452, 40871), (49020, 13571, 41032), (49261, 13687, 41188), (49505, 13790, 41367),
    (49751, 13920, 41540), (50000, 14048, 41708), (50251, 14176, 41877), (50505, 14305, 42045),
    (50761, 14436, 42214), (51020, 14568, 42384), (51282, 14701, 42555), (51546, 14836, 42726),
    (51813, 14972, 42898), (52083, 15110, 43072), (52356, 15250, 43246), (52632, 15392, 43421),
    (52910, 15535, 43598), (53191, 15681, 43777), (53476, 15831, 43958), (53763, 15986, 44145),
    (54054, 16158, 44306), (54348, 16302, 44476), (54645, 16453, 44654), (54945, 16606, 44833),
    (55249, 16763, 45015), (55556, 16924, 45200), (55866, 17091, 45393), (56180, 17276, 45556),
    (56497, 17431, 45730), (56818, 17593, 45911), (57143, 17758, 46095), (57471, 17926, 46280),
    (57803, 18097, 46466), (58140, 18269, 46654), (58480, 18444, 46842), (58824, 18622, 47032),
    (59172, 18801, 47222), (59524, 18982, 47413), (59880, 19166, 47605), (60241, 19351, 47798),
    (60606, 19539, 47990), (60976, 19728, 48183), (61350, 19917, 48375), (61728, 20102, 48561),
    (62112, 20273, 48783), (62500, 20483, 48991), (62893, 20687, 49192), (63291, 20885, 49385),
    (63694, 21069, 49615), (64103, 21292, 49829), (64516, 21508, 50034), (64935, 21716, 50232),
    (65359, 21911, 50468), (65789, 22145, 50685), (66225, 22365, 50889), (66667, 22571, 51131),
    (67114, 22816, 51354), (67568, 23047, 51561), (68027, 23262, 51809), (68493, 23518, 52036),
    (68966, 23758, 52247), (69444, 23982, 52498), (69930, 24240, 52721), (70423, 24474, 52979),
    (70922, 24743, 53206), (71429, 24988, 53470), (71942, 25267, 53703), (72464, 25524, 53974),
    (72993, 25824, 54219), (73529, 26105, 54446), (74074, 26372, 54721), (74627, 26684, 54968),
    (75188, 26979, 55199), (75758, 27259, 55478), (76336, 27586, 55729), (76923, 27894, 55963)] ++ [
    (77519, 28189, 56248), (78125, 28531, 56502), (78740, 28855, 56739), (79365, 29165, 57030),
    (80000, 29524, 57287), (80645, 29864, 57528), (81301, 30192, 57825), (81967, 30572, 58088),
    (82645, 30941, 58339), (83333, 31297, 58579), (84034, 31643, 58879), (84746, 32044, 59142),
    (85470, 32432, 59393), (86207, 32807, 59633), (86957, 33171, 59933), (87719, 33578, 60186),
    (88496, 33963, 60496), (89286, 34402, 60761), (90090, 34814, 61007), (90909, 35216, 61317),
    (91743, 35672, 61581), (92593, 36100, 61825), (93458, 36516, 62135), (94340, 36975, 62388),
    (95238, 37410, 62703), (96154, 37885, 62957), (97087, 38335, 63273), (98039, 38825, 63527),
    (99010, 39289, 63844), (100000, 39791, 64095), (101010, 40253, 64404), (102041, 40762, 64734),
    (103093, 41294, 64987), (104167, 41779, 65298), (105263, 42300, 65622), (106383, 42856, 65959),
    (107527, 43429, 66211), (108696, 43951, 66525), (109890, 44505, 66849), (111111, 45078, 67176),
    (112360, 45665, 67506), (113636, 46265, 67838), (114943, 46879, 68170), (116279, 47505, 68502),
    (117647, 48140, 68834), (119048, 48767, 69158), (120482, 49415, 69585), (121951, 50148, 69937),
    (123457, 50874, 70282), (125000, 51611, 70623)]

/-- refellips/materials/dmso.csv, 101 rows. -/
def dmsoRaw : RawMaterial where
  name := "dmso"
  dw := 4
  dn := 13
  dk := 0
  hasK := false
  rows :=
    [
    (2369, 16276996475098, 0), (2409, 16131214131242, 0), (2449, 16016052774790, 0),
    (2490, 15919217863878, 0), (2530, 15839411371851, 0), (2571, 15768753697025, 0),
    (2611, 15708204802409, 0), (2651, 15654235229922, 0), (2692, 15604475662558, 0),
    (2732, 15560434235227, 0), (2773, 15519185757885, 0), (2813, 15482197437315, 0),
    (2853, 15447994867452, 0), (2894, 15415469133364, 0), (2934, 15385918919666, 0),
    (2974, 15358287219694, 0), (3015, 15331749038989, 0), (3055, 15307427248286, 0),
    (3096, 15283953493362, 0), (3136, 15262345345759, 0), (3176, 15241904445734, 0),
    (3217, 15222063838049, 0), (3257, 15203705087218, 0), (3298, 15185831099699, 0),
    (3338, 15169245440741, 0), (3378, 15153441103661, 0), (3419, 15137995985313, 0),
    (3459, 15123613643179, 0), (3499, 15109864225458, 0), (3540, 15096385765824, 0),
    (3580, 15083798206611, 0), (3621, 15071436679702, 0), (3661, 15059872695319, 0),
    (3701, 15048770024316, 0), (3742, 15037841194530, 0), (3782, 15027594675081, 0),
    (3822, 15017736251216, 0), (3863, 15008012474120, 0), (3903, 14998878046072, 0),
    (3944, 14989857384036, 0), (3984, 14981373524391, 0), (4024, 14973186878398, 0),
    (4065, 14965088838647, 0), (4105, 14957460576751, 0), (4146, 14949907272894, 0),
    (4186, 14942785219996, 0), (4226, 14935895864759, 0), (4267, 14929064776636, 0),
    (4307, 14922615086246, 0), (4347, 14916368141466, 0), (4388, 14910166252971, 0),
    (4428, 14904303499214, 0), (4469, 14898478495355, 0), (4509, 14892967847701, 0),
    (4549, 14887620311110, 0), (4590, 14882301445242, 0), (4630, 14877264310829, 0),
    (4671, 14872250785649, 0), (4711, 14867499681402, 0), (4751, 14862881594237, 0),
    (4792, 14858280785970, 0), (4832, 14853916755676, 0), (4872, 14849671117990, 0),
    (4913, 14845437633410, 0), (4953, 14841418561832, 0), (4994, 14837408763493, 0),
    (5034, 14833599977000, 0), (5074, 14829889489707, 0), (5115, 14826184652899, 0),
    (5155, 14822662832718, 0), (5196, 14819144623365, 0), (5236, 14815798579343, 0),
    (5276, 14812534928752, 0), (5317, 14809272320824, 0), (5357, 14806167221937, 0),
    (5397, 14803136554097, 0), (5438, 14800104839859, 0), (5478, 14797217606180, 0),
    (5519, 14794328151523, 0), (5559, 14791575253397, 0), (5599, 14788885563129, 0),
    (5640, 14786192178069, 0), (5680, 14783624561496, 0), (5720, 14781114456113, 0),
    (5761, 14778599465605, 0), (5801, 14776200566733, 0), (5842, 14773796119422, 0),
    (5882, 14771501835971, 0), (5922, 14769256935403, 0), (5963, 14767005664130, 0),
    (6003, 14764856432354, 0), (6044, 14762700376992, 0), (6084, 14760641364872, 0),
    (6124, 14758625016397, 0), (6165, 14756601291366, 0), (6205, 14754667736733, 0),
    (6245, 14752773373278, 0), (6286, 14750871206034, 0), (6326, 14749052970843, 0),
    (6367, 14747226705488, 0)] ++ [ (6407, 14745480514496, 0)]

/-- refellips/materials/gold.csv, 171 rows. -/
def goldRaw : RawMaterial where
  name := "gold"
  dw := 2
  dn := 9
  dk := 8
  hasK := true
  rows :=
    [
    (30, 1640410330, 195599843), (31, 1676639010, 195498721), (32, 1713922550, 194861056),
    (33, 1737118900, 192747310), (34, 1736799420, 189861533), (35, 1704935670, 187620795),
    (36, 1661606490, 189365292), (37, 1636655380, 192546303), (38, 1628115070, 194785125),
    (39, 1622102420, 196184458), (40, 1616478310, 197010263), (41, 1605245380, 197051961),
    (42, 1588480290, 196521345), (43, 1565304790, 195400757), (44, 1534996790, 193678259),
    (45, 1491787320, 190835917), (46, 1430958010, 187257882), (47, 1347112940, 183227368),
    (48, 1219552940, 179151336), (49, 1047899830, 178013899), (50, 852468020, 183223160),
    (51, 679176705, 194873531), (52, 541457218, 211087109), (53, 452101673, 226230872),
    (54, 387062915, 240920071), (55, 338188089, 254904171), (56, 298954611, 268208200),
    (57, 267720512, 280962918), (58, 242106885, 293272480), (59, 222521873, 304781224),
    (60, 203958032, 316688023), (61, 188391970, 327818793), (62, 174967662, 338702993),
    (63, 163039817, 349309926), (64, 152677982, 360008422), (65, 143298342, 370301121),
    (66, 135219233, 380305792), (67, 128201302, 390353849), (68, 123253481, 400549857),
    (69, 120314346, 410241831), (70, 118674305, 420034173), (71, 118801128, 429371695),
    (72, 118879580, 438558526), (73, 119515774, 447909845), (74, 120372640, 456858375),
    (75, 120019627, 466080181), (76, 121158951, 474990128), (77, 122491692, 483323227),
    (78, 123832761, 492283520), (79, 124983601, 500868302), (80, 127002919, 509338899),
    (81, 128450175, 517869829), (82, 130538811, 527251247), (83, 131897577, 533956445),
    (84, 133847421, 542779904), (85, 135964843, 550610842), (86, 138530279, 559980076),
    (87, 140236478, 568121574), (88, 141767176, 576023281), (89, 144250227, 583478274),
    (90, 146676289, 591571200), (91, 148222864, 599629529), (92, 152093810, 607425885),
    (93, 154297675, 615781653), (94, 156751047, 623700205), (95, 159772506, 631842559),
    (96, 162166407, 639577808), (97, 165024268, 647754420), (98, 167030355, 655631163),
    (99, 167767712, 663673726), (100, 169528169, 670952799), (101, 170129275, 678950508),
    (102, 169765367, 685919981), (103, 193730474, 694150282), (104, 196999541, 701625013),
    (105, 202009953, 709720223), (106, 204501023, 716547863), (107, 208802550, 725036137),
    (108, 211242681, 733230942), (109, 214940413, 739539739), (110, 220261517, 747786384),
    (111, 223181210, 755779308), (112, 229303383, 762538115), (113, 233780311, 770889970),
    (114, 239464788, 778388828), (115, 240389676, 786406467), (116, 244024682, 794565847),
    (117, 249327395, 802021673), (118, 254271222, 808569216), (119, 259806251, 815933083),
    (120, 263290662, 823460717), (121, 270863055, 831631258), (122, 273004824, 839185334),
    (123, 276845426, 846584415), (124, 283884288, 853874170), (125, 286403846, 862033396),
    (126, 286112495, 870737370), (127, 291961181, 876348467), (128, 291073562, 883477743),
    (129, 297054840, 891797408)] ++ [ (130, 307179340, 899511394), (131, 308878168, 906923106),
    (132, 307515343, 914676861), (133, 315035514, 921484052), (134, 323467309, 929197962),
    (135, 325275387, 936711868), (136, 332418839, 945052436), (137, 332461978, 951832212),
    (138, 338398605, 958958623), (139, 340014998, 966212932), (140, 348718040, 974258243),
    (141, 352931105, 982166924), (142, 354147420, 988716053), (143, 356602367, 995754365),
    (144, 364850498, 1004015640), (145, 377191709, 1011368090), (146, 373528687, 1018888420),
    (147, 370711508, 1027260800), (148, 377860166, 1032884320), (149, 379356656, 1040584070),
    (150, 379709104, 1047817160), (151, 388320089, 1054896480), (152, 394088053, 1061566230),
    (153, 397301312, 1070630690), (154, 404524096, 1079084560), (155, 401785516, 1084430750),
    (156, 407006578, 1092549620), (157, 411279190, 1099218460), (158, 419241686, 1106294910),
    (159, 425788954, 1113202040), (160, 424489839, 1121775590), (161, 430342816, 1129895990),
    (162, 436778305, 1137027520), (163, 441896168, 1144360120), (164, 440246657, 1151657310),
    (165, 447422843, 1159447590), (166, 451920347, 1166306820), (167, 454471869, 1174125910),
    (168, 453537001, 1180627110), (169, 456886100, 1188184980), (170, 459084760, 1195641170),
    (171, 461586065, 1201824680), (172, 469429475, 1209256690), (173, 475152015, 1215927380),
    (174, 476620506, 1223249030), (175, 485420645, 1229578790), (176, 490647866, 1236821260),
    (177, 492823876, 1243962980), (178, 501361923, 1250582630), (179, 504507482, 1257154920),
    (180, 505507959, 1264533620), (181, 510387260, 1271551230), (182, 513402641, 1278462430),
    (183, 516656870, 1284886800), (184, 515242627, 1291625490), (185, 526318409, 1299052780),
    (186, 530203064, 1305386550), (187, 534847981, 1313041420), (188, 537328097, 1319566330),
    (189, 540558349, 1325443420), (190, 554528182, 1338055790), (191, 554088334, 1344749130),
    (192, 561568919, 1351453510), (193, 569601266, 1358876860), (194, 577520898, 1366247210),
    (195, 588886882, 1372992570), (196, 587100173, 1380734520), (197, 594625184, 1389341290),
    (198, 595217796, 1396812060), (199, 599760919, 1404465930), (200, 607773710, 1410402800)]

/-- refellips/materials/pnipam.csv, 676 rows. -/
def pnipamRaw : RawMaterial where
  name := "pnipam"
  dw := 6
  dn := 6
  dk := 6
  hasK := true
  rows :=
    [
    (245581, 1602264, 9484), (247181, 1600191, 9341), (248781, 1598174, 9201),
    (250381, 1596210, 9065), (251981, 1594300, 8933), (253581, 1592439, 8804),
    (255182, 1590627, 8679), (256782, 1588863, 8557), (258382, 1587144, 8438),
    (259982, 1585469, 8322), (261582, 1583836, 8210), (263182, 1582245, 8100),
    (264783, 1580693, 7993), (266383, 1579180, 7888), (267983, 1577705, 7787),
    (269583, 1576265, 7687), (271183, 1574861, 7590), (272783, 1573490, 7496),
    (274384, 1572153, 7404), (275984, 1570847, 7313), (277584, 1569572, 7225),
    (279184, 1568327, 7140), (280784, 1567111, 7056), (282384, 1565923, 6974),
    (283984, 1564762, 6893), (285584, 1563628, 6815), (287184, 1562519, 6738),
    (288784, 1561436, 6664), (290384, 1560377, 6590), (291984, 1559341, 6519),
    (293584, 1558328, 6448), (295184, 1557337, 6380), (296784, 1556368, 6313),
    (298384, 1555420, 6247), (299984, 1554492, 6183), (301584, 1553584, 6120),
    (303184, 1552695, 6058), (304784, 1551825, 5997), (306384, 1550973, 5938),
    (307984, 1550139, 5880), (309584, 1549322, 5823), (311184, 1548521, 5767),
    (312783, 1547737, 5713), (314383, 1546969, 5659), (315983, 1546217, 5607),
    (317583, 1545479, 5555), (319183, 1544756, 5504), (320782, 1544048, 5455),
    (322382, 1543353, 5406), (323982, 1542672, 5358), (325581, 1542004, 5311),
    (327181, 1541349, 5265), (328780, 1540707, 5220), (330380, 1540076, 5176),
    (331980, 1539458, 5132), (333579, 1538851, 5090), (335179, 1538256, 5048),
    (336778, 1537672, 5006), (338378, 1537099, 4966), (339977, 1536536, 4926),
    (341576, 1535983, 4887), (343176, 1535440, 4848), (344775, 1534908, 4810),
    (346374, 1534384, 4773), (347974, 1533871, 4737), (349573, 1533366, 4701),
    (351172, 1532870, 4665), (352771, 1532383, 4631), (354370, 1531904, 4596),
    (355969, 1531434, 4563), (357568, 1530972, 4530), (359168, 1530517, 4497),
    (360767, 1530071, 4465), (362365, 1529632, 4434), (363964, 1529200, 4403),
    (365563, 1528776, 4372), (367162, 1528359, 4342), (368761, 1527949, 4312),
    (370360, 1527545, 4283), (371958, 1527148, 4254), (373557, 1526758, 4226),
    (375156, 1526374, 4198), (376754, 1525996, 4171), (378353, 1525624, 4144),
    (379952, 1525259, 4117), (381550, 1524899, 4091), (383148, 1524544, 4065),
    (384747, 1524196, 4040), (386345, 1523852, 4015), (387944, 1523514, 3990),
    (389542, 1523182, 3966), (391140, 1522854, 3941), (392738, 1522532, 3918),
    (394336, 1522214, 3894), (395935, 1521901, 3871), (397533, 1521593, 3849),
    (399131, 1521290, 3826), (400729, 1520991, 3804), (402326, 1520697, 3782),
    (403924, 1520407, 3761)] ++ [ (405522, 1520121, 3740), (407120, 1519840, 3719),
    (408718, 1519562, 3698), (410315, 1519289, 3678), (411913, 1519019, 3658),
    (413510, 1518754, 3638), (415108, 1518492, 3618), (416705, 1518234, 3599),
    (418303, 1517980, 3580), (419900, 1517729, 3561), (421497, 1517482, 3543),
    (423095, 1517238, 3524), (424692, 1516997, 3506), (426289, 1516760, 3488),
    (427886, 1516526, 3471), (429483, 1516296, 3453), (431080, 1516068, 3436),
    (432677, 1515844, 3419), (434274, 1515623, 3402), (435870, 1515405, 3386),
    (437467, 1515189, 3369), (439064, 1514977, 3353), (440660, 1514767, 3337),
    (442257, 1514560, 3321), (443853, 1514356, 3306), (445450, 1514155, 3290),
    (447046, 1513956, 3275), (448642, 1513759, 3260), (450238, 1513566, 3245),
    (451834, 1513374, 3230), (453431, 1513186, 3216), (455027, 1512999, 3201),
    (456622, 1512815, 3187), (458218, 1512634, 3173), (459814, 1512454, 3159),
    (461410, 1512277, 3145), (463006, 1512102, 3132), (464601, 1511930, 3118),
    (466197, 1511759, 3105), (467792, 1511591, 3092), (469388, 1511424, 3079),
    (470983, 1511260, 3066), (472578, 1511098, 3053), (474173, 1510937, 3041),
    (475768, 1510779, 3028), (477363, 1510622, 3016), (478958, 1510468, 3004),
    (480553, 1510315, 2992), (482148, 1510164, 2980), (483743, 1510015, 2968),
    (485337, 1509867, 2957), (486932, 1509722, 2945), (488526, 1509578, 2934),
    (490121, 1509435, 2922), (491715, 1509295, 2911), (493309, 1509156, 2900),
    (494904, 1509018, 2889), (496498, 1508882, 2878), (498092, 1508748, 2868),
    (499686, 1508615, 2857), (501279, 1508484, 2846), (502873, 1508354, 2836),
    (504467, 1508226, 2826), (506061, 1508099, 2815), (507654, 1507974, 2805),
    (509248, 1507850, 2795), (510841, 1507727, 2785), (512434, 1507606, 2776),
    (514027, 1507486, 2766), (515620, 1507367, 2756), (517214, 1507250, 2747),
    (518806, 1507134, 2737), (520399, 1507019, 2728), (521992, 1506905, 2719),
    (523585, 1506793, 2710), (525177, 1506682, 2701), (526770, 1506572, 2692),
    (528362, 1506463, 2683), (529954, 1506355, 2674), (531547, 1506249, 2665),
    (533139, 1506143, 2656), (534731, 1506039, 2648), (536323, 1505936, 2639),
    (537915, 1505834, 2631), (539506, 1505733, 2623), (541098, 1505633, 2614),
    (542690, 1505534, 2606), (544281, 1505436, 2598), (545872, 1505339, 2590),
    (547464, 1505243, 2582), (549055, 1505148, 2574), (550646, 1505054, 2566),
    (552237, 1504961, 2558), (553828, 1504868, 2551), (555419, 1504777, 2543),
    (557009, 1504687, 2536), (558600, 1504597, 2528), (560190, 1504509, 2521),
    (561781, 1504421, 2513), (563371, 1504334, 2506)] ++ [ (564961, 1504248, 2499),
    (566551, 1504163, 2491), (568141, 1504079, 2484), (569731, 1503996, 2477),
    (571321, 1503913, 2470), (572910, 1503831, 2463), (574500, 1503750, 2456),
    (576089, 1503670, 2450), (577679, 1503590, 2443), (579268, 1503511, 2436),
    (580857, 1503433, 2430), (582446, 1503356, 2423), (584035, 1503279, 2416),
    (585624, 1503204, 2410), (587212, 1503129, 2403), (588801, 1503054, 2397),
    (590389, 1502980, 2391), (591978, 1502907, 2384), (593566, 1502835, 2378),
    (595154, 1502763, 2372), (596742, 1502692, 2366), (598330, 1502622, 2360),
    (599918, 1502552, 2354), (601505, 1502483, 2348), (603093, 1502414, 2342),
    (604681, 1502347, 2336), (606268, 1502279, 2330), (607855, 1502213, 2324),
    (609442, 1502147, 2318), (611029, 1502081, 2313), (612616, 1502016, 2307),
    (614203, 1501952, 2301), (615789, 1501888, 2296), (617376, 1501825, 2290),
    (618962, 1501762, 2285), (620548, 1501700, 2279), (622135, 1501639, 2274),
    (623721, 1501578, 2269), (625306, 1501517, 2263), (626892, 1501457, 2258),
    (628478, 1501398, 2253), (630063, 1501339, 2247), (631649, 1501281, 2242),
    (633234, 1501223, 2237), (634819, 1501165, 2232), (636404, 1501108, 2227),
    (637989, 1501052, 2222), (639574, 1500996, 2217), (641159, 1500940, 2212),
    (642743, 1500885, 2207), (644327, 1500831, 2202), (645912, 1500777, 2197),
    (647496, 1500723, 2192), (649080, 1500670, 2188), (650664, 1500617, 2183),
    (652247, 1500565, 2178), (653831, 1500513, 2174), (655414, 1500461, 2169),
    (656998, 1500410, 2164), (658581, 1500360, 2160), (660164, 1500309, 2155),
    (661747, 1500260, 2151), (663330, 1500210, 2146), (664912, 1500161, 2142),
    (666495, 1500113, 2137), (668077, 1500064, 2133), (669660, 1500017, 2128),
    (671242, 1499969, 2124), (672824, 1499922, 2120), (674405, 1499875, 2116),
    (675987, 1499829, 2111), (677569, 1499783, 2107), (679150, 1499737, 2103),
    (680731, 1499692, 2099), (682313, 1499647, 2095), (683893, 1499603, 2090),
    (685474, 1499558, 2086), (687055, 1499515, 2082), (688636, 1499471, 2078),
    (690216, 1499428, 2074), (691796, 1499385, 2070), (693376, 1499343, 2066),
    (694956, 1499300, 2062), (696536, 1499259, 2059), (698116, 1499217, 2055),
    (699695, 1499176, 2051), (701275, 1499135, 2047), (702854, 1499094, 2043),
    (704433, 1499054, 2039), (706012, 1499014, 2036), (707591, 1498974, 2032),
    (709170, 1498935, 2028), (710748, 1498896, 2025), (712326, 1498857, 2021),
    (713905, 1498818, 2017), (715483, 1498780, 2014), (717061, 1498742, 2010),
    (718638, 1498704, 2007), (720216, 1498667, 2003), (721793, 1498630, 2000)] ++ [
    (723371, 1498593, 1996), (724948, 1498556, 1993), (726525, 1498520, 1989),
    (728101, 1498484, 1986), (729678, 1498448, 1982), (731255, 1498413, 1979),
    (732831, 1498377, 1975), (734407, 1498342, 1972), (735983, 1498308, 1969),
    (737559, 1498273, 1965), (739135, 1498239, 1962), (740710, 1498205, 1959),
    (742286, 1498171, 1956), (743861, 1498137, 1952), (745436, 1498104, 1949),
    (747011, 1498071, 1946), (748585, 1498038, 1943), (750160, 1498006, 1940),
    (751734, 1497973, 1937), (753308, 1497941, 1933), (754883, 1497909, 1930),
    (756456, 1497877, 1927), (758030, 1497846, 1924), (759604, 1497815, 1921),
    (761177, 1497783, 1918), (762750, 1497753, 1915), (764323, 1497722, 1912),
    (765896, 1497692, 1909), (767469, 1497661, 1906), (769042, 1497631, 1903),
    (770614, 1497601, 1900), (772186, 1497572, 1897), (773758, 1497542, 1895),
    (775330, 1497513, 1892), (776902, 1497484, 1889), (778473, 1497455, 1886),
    (780045, 1497427, 1883), (781616, 1497398, 1880), (783187, 1497370, 1878),
    (784758, 1497342, 1875), (786328, 1497314, 1872), (787899, 1497286, 1869),
    (789469, 1497259, 1867), (791039, 1497232, 1864), (792609, 1497204, 1861),
    (794179, 1497177, 1858), (795748, 1497151, 1856), (797318, 1497124, 1853),
    (798887, 1497098, 1850), (800456, 1497071, 1848), (802025, 1497045, 1845),
    (803593, 1497019, 1843), (805162, 1496994, 1840), (806730, 1496968, 1837),
    (808298, 1496943, 1835), (809866, 1496917, 1832), (811434, 1496892, 1830),
    (813001, 1496867, 1827), (814569, 1496843, 1825), (816136, 1496818, 1822),
    (817703, 1496793, 1820), (819270, 1496769, 1817), (820836, 1496745, 1815),
    (822403, 1496721, 1812), (823969, 1496697, 1810), (825535, 1496673, 1808),
    (827101, 1496650, 1805), (828667, 1496626, 1803), (830232, 1496603, 1800),
    (831798, 1496580, 1798), (833363, 1496557, 1796), (834928, 1496534, 1793),
    (836492, 1496511, 1791), (838057, 1496489, 1789), (839621, 1496467, 1786),
    (841185, 1496444, 1784), (842749, 1496422, 1782), (844313, 1496400, 1780),
    (845877, 1496378, 1777), (847440, 1496356, 1775), (849003, 1496335, 1773),
    (850566, 1496313, 1771), (852129, 1496292, 1768), (853691, 1496271, 1766),
    (855254, 1496250, 1764), (856816, 1496229, 1762), (858378, 1496208, 1760),
    (859940, 1496187, 1758), (861501, 1496167, 1755), (863063, 1496146, 1753),
    (864624, 1496126, 1751), (866185, 1496106, 1749), (867745, 1496086, 1747),
    (869306, 1496065, 1745), (870866, 1496046, 1743), (872426, 1496026, 1741),
    (873986, 1496006, 1739), (875546, 1495987, 1737), (877106, 1495967, 1735),
    (878665, 1495948, 1733)] ++ [ (880224, 1495929, 1730), (881783, 1495910, 1728),
    (883341, 1495891, 1726), (884900, 1495872, 1724), (886458, 1495853, 1722),
    (888016, 1495835, 1721), (889574, 1495816, 1719), (891132, 1495798, 1717),
    (892689, 1495779, 1715), (894246, 1495761, 1713), (895803, 1495743, 1711),
    (897360, 1495725, 1709), (898917, 1495707, 1707), (900473, 1495690, 1705),
    (902029, 1495672, 1703), (903585, 1495654, 1701), (905141, 1495637, 1699),
    (906696, 1495619, 1698), (908252, 1495602, 1696), (909807, 1495585, 1694),
    (911362, 1495568, 1692), (912916, 1495551, 1690), (914471, 1495534, 1688),
    (916025, 1495517, 1687), (917579, 1495500, 1685), (919132, 1495484, 1683),
    (920686, 1495467, 1681), (922239, 1495451, 1679), (923792, 1495434, 1678),
    (925345, 1495418, 1676), (926898, 1495402, 1674), (928450, 1495386, 1672),
    (930002, 1495370, 1671), (931554, 1495354, 1669), (933106, 1495338, 1667),
    (934658, 1495322, 1665), (936209, 1495307, 1664), (937760, 1495291, 1662),
    (939311, 1495276, 1660), (940861, 1495260, 1659), (942412, 1495245, 1657),
    (943962, 1495230, 1655), (945512, 1495215, 1654), (947061, 1495200, 1652),
    (948611, 1495185, 1650), (950160, 1495170, 1649), (951709, 1495155, 1647),
    (953258, 1495140, 1645), (954806, 1495126, 1644), (956354, 1495111, 1642),
    (957902, 1495096, 1641), (959450, 1495082, 1639), (960998, 1495068, 1637),
    (962545, 1495053, 1636), (964092, 1495039, 1634), (965639, 1495025, 1633),
    (967186, 1495011, 1631), (968732, 1494997, 1629), (970278, 1494983, 1628),
    (971824, 1494969, 1626), (973370, 1494955, 1625), (974915, 1494942, 1623),
    (976461, 1494928, 1622), (978005, 1494915, 1620), (979550, 1494901, 1619),
    (981095, 1494888, 1617), (982639, 1494874, 1616), (984183, 1494861, 1614),
    (985727, 1494848, 1613), (987270, 1494835, 1611), (988813, 1494822, 1610),
    (990356, 1494809, 1608), (991899, 1494796, 1607), (993442, 1494783, 1605),
    (994984, 1494770, 1604), (996526, 1494757, 1603), (998068, 1494745, 1601),
    (999609, 1494732, 1600), (1012269, 1494631, 1588), (1015673, 1494604, 1585),
    (1019077, 1494578, 1582), (1022481, 1494552, 1579), (1025884, 1494526, 1576),
    (1029287, 1494501, 1573), (1032690, 1494475, 1570), (1036093, 1494451, 1567),
    (1039496, 1494426, 1564), (1042899, 1494401, 1562), (1046301, 1494377, 1559),
    (1049703, 1494353, 1556), (1053105, 1494330, 1553), (1056507, 1494306, 1550),
    (1059909, 1494283, 1548), (1063311, 1494260, 1545), (1066713, 1494238, 1542),
    (1070115, 1494215, 1540), (1073516, 1494193, 1537), (1076917, 1494171, 1534),
    (1080319, 1494149, 1532), (1083720, 1494127, 1529)] ++ [ (1087121, 1494106, 1527),
    (1090523, 1494085, 1524), (1093924, 1494064, 1522), (1097325, 1494043, 1519),
    (1100726, 1494022, 1517), (1104127, 1494002, 1514), (1107529, 1493982, 1512),
    (1110930, 1493962, 1509), (1114331, 1493942, 1507), (1117732, 1493922, 1505),
    (1121133, 1493903, 1502), (1124534, 1493884, 1500), (1127935, 1493865, 1498),
    (1131337, 1493846, 1495), (1134738, 1493827, 1493), (1138139, 1493809, 1491),
    (1141541, 1493790, 1488), (1144943, 1493772, 1486), (1148344, 1493754, 1484),
    (1151746, 1493736, 1482), (1155148, 1493719, 1480), (1158550, 1493701, 1477),
    (1161952, 1493684, 1475), (1165354, 1493667, 1473), (1168756, 1493650, 1471),
    (1172158, 1493633, 1469), (1175561, 1493616, 1467), (1178964, 1493599, 1465),
    (1182367, 1493583, 1463), (1185770, 1493567, 1460), (1189173, 1493551, 1458),
    (1192576, 1493535, 1456), (1195980, 1493519, 1454), (1199384, 1493503, 1452),
    (1202788, 1493487, 1450), (1206192, 1493472, 1448), (1209596, 1493457, 1446),
    (1213001, 1493442, 1445), (1216406, 1493426, 1443), (1219811, 1493412, 1441),
    (1223216, 1493397, 1439), (1226622, 1493382, 1437), (1230028, 1493368, 1435),
    (1233434, 1493353, 1433), (1236840, 1493339, 1431), (1240247, 1493325, 1429),
    (1243654, 1493311, 1428), (1247062, 1493297, 1426), (1250469, 1493283, 1424),
    (1253877, 1493269, 1422), (1257286, 1493256, 1420), (1260694, 1493242, 1419),
    (1264103, 1493229, 1417), (1267512, 1493216, 1415), (1270922, 1493202, 1413),
    (1274332, 1493189, 1412), (1277743, 1493176, 1410), (1281154, 1493164, 1408),
    (1284565, 1493151, 1407), (1287976, 1493138, 1405), (1291388, 1493126, 1403),
    (1294801, 1493114, 1402), (1298214, 1493101, 1400), (1301627, 1493089, 1398),
    (1305040, 1493077, 1397), (1308455, 1493065, 1395), (1311869, 1493053, 1393),
    (1315284, 1493041, 1392), (1318700, 1493029, 1390), (1322116, 1493018, 1389),
    (1325532, 1493006, 1387), (1328949, 1492995, 1386), (1332366, 1492983, 1384),
    (1335784, 1492972, 1382), (1339203, 1492961, 1381), (1342622, 1492950, 1379),
    (1346041, 1492939, 1378), (1349461, 1492928, 1376), (1352882, 1492917, 1375),
    (1356303, 1492906, 1373), (1359724, 1492895, 1372), (1363147, 1492885, 1371),
    (1366569, 1492874, 1369), (1369993, 1492864, 1368), (1373417, 1492854, 1366),
    (1376841, 1492843, 1365), (1380266, 1492833, 1363), (1383692, 1492823, 1362),
    (1387118, 1492813, 1360), (1390545, 1492803, 1359), (1393973, 1492793, 1358),
    (1397401, 1492783, 1356), (1400830, 1492773, 1355), (1404260, 1492764, 1354),
    (1407690, 1492754, 1352), (1411121, 1492745, 1351), (1414552, 1492735, 1349),
    (1417985, 1492726, 1348), (1421418, 1492716, 1347), (1424851, 1492707, 1346)] ++ [
    (1428286, 1492698, 1344), (1431721, 1492689, 1343), (1435156, 1492680, 1342),
    (1438593, 1492671, 1340), (1442030, 1492662, 1339), (1445468, 1492653, 1338),
    (1448907, 1492644, 1336), (1452346, 1492635, 1335), (1455787, 1492627, 1334),
    (1459228, 1492618, 1333), (1462669, 1492609, 1331), (1466112, 1492601, 1330),
    (1469555, 1492592, 1329), (1473000, 1492584, 1328), (1476445, 1492576, 1327),
    (1479891, 1492567, 1325), (1483337, 1492559, 1324), (1486785, 1492551, 1323),
    (1490233, 1492543, 1322), (1493682, 1492535, 1321), (1497132, 1492527, 1319),
    (1500583, 1492519, 1318), (1504035, 1492511, 1317), (1507488, 1492503, 1316),
    (1510942, 1492495, 1315), (1514396, 1492488, 1314), (1517851, 1492480, 1312),
    (1521308, 1492472, 1311), (1524765, 1492465, 1310), (1528223, 1492457, 1309),
    (1531682, 1492450, 1308), (1535142, 1492442, 1307), (1538603, 1492435, 1306),
    (1542065, 1492428, 1305), (1545528, 1492420, 1303), (1548992, 1492413, 1302),
    (1552457, 1492406, 1301), (1555922, 1492399, 1300), (1559389, 1492392, 1299),
    (1562857, 1492385, 1298), (1566326, 1492378, 1297), (1569796, 1492371, 1296),
    (1573267, 1492364, 1295), (1576739, 1492357, 1294), (1580212, 1492350, 1293),
    (1583686, 1492343, 1292), (1587161, 1492337, 1291), (1590637, 1492330, 1290),
    (1594114, 1492323, 1289), (1597592, 1492317, 1288), (1601072, 1492310, 1287),
    (1604552, 1492304, 1286), (1608034, 1492297, 1285), (1611516, 1492291, 1284),
    (1615000, 1492284, 1283), (1618485, 1492278, 1282), (1621971, 1492272, 1281),
    (1625458, 1492265, 1280), (1628947, 1492259, 1279), (1632436, 1492253, 1278),
    (1635927, 1492247, 1277), (1639419, 1492241, 1276), (1642912, 1492235, 1275),
    (1646406, 1492229, 1274), (1649901, 1492223, 1273), (1653398, 1492217, 1272),
    (1656896, 1492211, 1271), (1660395, 1492205, 1270), (1663895, 1492199, 1269),
    (1667396, 1492193, 1268), (1670899, 1492187, 1267), (1674403, 1492182, 1266),
    (1677908, 1492176, 1265), (1681415, 1492170, 1265), (1684922, 1492164, 1264),
    (1688431, 1492159, 1263)]

/-- refellips/materials/polymer_diffuse.csv, 676 rows. -/
def polymerDiffuseRaw : RawMaterial where
  name := "polymer_diffuse"
  dw := 6
  dn := 6
  dk := 6
  hasK := true
  rows :=
    [
    (245581, 1602264, 9484), (247181, 1600191, 9341), (248781, 1598174, 9201),
    (250381, 1596210, 9065), (251981, 1594300, 8933), (253581, 1592439, 8804),
    (255182, 1590627, 8679), (256782, 1588863, 8557), (258382, 1587144, 8438),
    (259982, 1585469, 8322), (261582, 1583836, 8210), (263182, 1582245, 8100),
    (264783, 1580693, 7993), (266383, 1579180, 7888), (267983, 1577705, 7787),
    (269583, 1576265, 7687), (271183, 1574861, 7590), (272783, 1573490, 7496),
    (274384, 1572153, 7404), (275984, 1570847, 7313), (277584, 1569572, 7225),
    (279184, 1568327, 7140), (280784, 1567111, 7056), (282384, 1565923, 6974),
    (283984, 1564762, 6893), (285584, 1563628, 6815), (287184, 1562519, 6738),
    (288784, 1561436, 6664), (290384, 1560377, 6590), (291984, 1559341, 6519),
    (293584, 1558328, 6448), (295184, 1557337, 6380), (296784, 1556368, 6313),
    (298384, 1555420, 6247), (299984, 1554492, 6183), (301584, 1553584, 6120),
    (303184, 1552695, 6058), (304784, 1551825, 5997), (306384, 1550973, 5938),
    (307984, 1550139, 5880), (309584, 1549322, 5823), (311184, 1548521, 5767),
    (312783, 1547737, 5713), (314383, 1546969, 5659), (315983, 1546217, 5607),
    (317583, 1545479, 5555), (319183, 1544756, 5504), (320782, 1544048, 5455),
    (322382, 1543353, 5406), (323982, 1542672, 5358), (325581, 1542004, 5311),
    (327181, 1541349, 5265), (328780, 1540707, 5220), (330380, 1540076, 5176),
    (331980, 1539458, 5132), (333579, 1538851, 5090), (335179, 1538256, 5048),
    (336778, 1537672, 5006), (338378, 1537099, 4966), (339977, 1536536, 4926),
    (341576, 1535983, 4887), (343176, 1535440, 4848), (344775, 1534908, 4810),
    (346374, 1534384, 4773), (347974, 1533871, 4737), (349573, 1533366, 4701),
    (351172, 1532870, 4665), (352771, 1532383, 4631), (354370, 1531904, 4596),
    (355969, 1531434, 4563), (357568, 1530972, 4530), (359168, 1530517, 4497),
    (360767, 1530071, 4465), (362365, 1529632, 4434), (363964, 1529200, 4403),
    (365563, 1528776, 4372), (367162, 1528359, 4342), (368761, 1527949, 4312),
    (370360, 1527545, 4283), (371958, 1527148, 4254), (373557, 1526758, 4226),
    (375156, 1526374, 4198), (376754, 1525996, 4171), (378353, 1525624, 4144),
    (379952, 1525259, 4117), (381550, 1524899, 4091), (383148, 1524544, 4065),
    (384747, 1524196, 4040), (386345, 1523852, 4015), (387944, 1523514, 3990),
    (389542, 1523182, 3966), (391140, 1522854, 3941), (392738, 1522532, 3918),
    (394336, 1522214, 3894), (395935, 1521901, 3871), (397533, 1521593, 3849),
    (399131, 1521290, 3826), (400729, 1520991, 3804), (402326, 1520697, 3782),
    (403924, 1520407, 3761)] ++ [ (405522, 1520121, 3740), (407120, 1519840, 3719),
    (408718, 1519562, 3698), (410315, 1519289, 3678), (411913, 1519019, 3658),
    (413510, 1518754, 3638), (415108, 1518492, 3618), (416705, 1518234, 3599),
    (418303, 1517980, 3580), (419900, 1517729, 3561), (421497, 1517482, 3543),
    (423095, 1517238, 3524), (424692, 1516997, 3506), (426289, 1516760, 3488),
    (427886, 1516526, 3471), (429483, 1516296, 3453), (431080, 1516068, 3436),
    (432677, 1515844, 3419), (434274, 1515623, 3402), (435870, 1515405, 3386),
    (437467, 1515189, 3369), (439064, 1514977, 3353), (440660, 1514767, 3337),
    (442257, 1514560, 3321), (443853, 1514356, 3306), (445450, 1514155, 3290),
    (447046, 1513956, 3275), (448642, 1513759, 3260), (450238, 1513566, 3245),
    (451834, 1513374, 3230), (453431, 1513186, 3216), (455027, 1512999, 3201),
    (456622, 1512815, 3187), (458218, 1512634, 3173), (459814, 1512454, 3159),
    (461410, 1512277, 3145), (463006, 1512102, 3132), (464601, 1511930, 3118),
    (466197, 1511759, 3105), (467792, 1511591, 3092), (469388, 1511424, 3079),
    (470983, 1511260, 3066), (472578, 1511098, 3053), (474173, 1510937, 3041),
    (475768, 1510779, 3028), (477363, 1510622, 3016), (478958, 1510468, 3004),
    (480553, 1510315, 2992), (482148, 1510164, 2980), (483743, 1510015, 2968),
    (485337, 1509867, 2957), (486932, 1509722, 2945), (488526, 1509578, 2934),
    (490121, 1509435, 2922), (491715, 1509295, 2911), (493309, 1509156, 2900),
    (494904, 1509018, 2889), (496498, 1508882, 2878), (498092, 1508748, 2868),
    (499686, 1508615, 2857), (501279, 1508484, 2846), (502873, 1508354, 2836),
    (504467, 1508226, 2826), (506061, 1508099, 2815), (507654, 1507974, 2805),
    (509248, 1507850, 2795), (510841, 1507727, 2785), (512434, 1507606, 2776),
    (514027, 1507486, 2766), (515620, 1507367, 2756), (517214, 1507250, 2747),
    (518806, 1507134, 2737), (520399, 1507019, 2728), (521992, 1506905, 2719),
    (523585, 1506793, 2710), (525177, 1506682, 2701), (526770, 1506572, 2692),
    (528362, 1506463, 2683), (529954, 1506355, 2674), (531547, 1506249, 2665),
    (533139, 1506143, 2656), (534731, 1506039, 2648), (536323, 1505936, 2639),
    (537915, 1505834, 2631), (539506, 1505733, 2623), (541098, 1505633, 2614),
    (542690, 1505534, 2606), (544281, 1505436, 2598), (545872, 1505339, 2590),
    (547464, 1505243, 2582), (549055, 1505148, 2574), (550646, 1505054, 2566),
    (552237, 1504961, 2558), (553828, 1504868, 2551), (555419, 1504777, 2543),
    (557009, 1504687, 2536), (558600, 1504597, 2528), (560190, 1504509, 2521),
    (561781, 1504421, 2513), (563371, 1504334, 2506)] ++ [ (564961, 1504248, 2499),
    (566551, 1504163, 2491), (568141, 1504079, 2484), (569731, 1503996, 2477),
    (571321, 1503913, 2470), (572910, 1503831, 2463), (574500, 1503750, 2456),
    (576089, 1503670, 2450), (577679, 1503590, 2443), (579268, 1503511, 2436),
    (580857, 1503433, 2430), (582446, 1503356, 2423), (584035, 1503279, 2416),
    (585624, 1503204, 2410), (587212, 1503129, 2403), (588801, 1503054, 2397),
    (590389, 1502980, 2391), (591978, 1502907, 2384), (593566, 1502835, 2378),
    (595154, 1502763, 2372), (596742, 1502692, 2366), (598330, 1502622, 2360),
    (599918, 1502552, 2354), (601505, 1502483, 2348), (603093, 1502414, 2342),
    (604681, 1502347, 2336), (606268, 1502279, 2330), (607855, 1502213, 2324),
    (609442, 1502147, 2318), (611029, 1502081, 2313), (612616, 1502016, 2307),
    (614203, 1501952, 2301), (615789, 1501888, 2296), (617376, 1501825, 2290),
    (618962, 1501762, 2285), (620548, 1501700, 2279), (622135, 1501639, 2274),
    (623721, 1501578, 2269), (625306, 1501517, 2263), (626892, 1501457, 2258),
    (628478, 1501398, 2253), (630063, 1501339, 2247), (631649, 1501281, 2242),
    (633234, 1501223, 2237), (634819, 1501165, 2232), (636404, 1501108, 2227),
    (637989, 1501052, 2222), (639574, 1500996, 2217), (641159, 1500940, 2212),
    (642743, 1500885, 2207), (644327, 1500831, 2202), (645912, 1500777, 2197),
    (647496, 1500723, 2192), (649080, 1500670, 2188), (650664, 1500617, 2183),
    (652247, 1500565, 2178), (653831, 1500513, 2174), (655414, 1500461, 2169),
    (656998, 1500410, 2164), (658581, 1500360, 2160), (660164, 1500309, 2155),
    (661747, 1500260, 2151), (663330, 1500210, 2146), (664912, 1500161, 2142),
    (666495, 1500113, 2137), (668077, 1500064, 2133), (669660, 1500017, 2128),
    (671242, 1499969, 2124), (672824, 1499922, 2120), (674405, 1499875, 2116),
    (675987, 1499829, 2111), (677569, 1499783, 2107), (679150, 1499737, 2103),
    (680731, 1499692, 2099), (682313, 1499647, 2095), (683893, 1499603, 2090),
    (685474, 1499558, 2086), (687055, 1499515, 2082), (688636, 1499471, 2078),
    (690216, 1499428, 2074), (691796, 1499385, 2070), (693376, 1499343, 2066),
    (694956, 1499300, 2062), (696536, 1499259, 2059), (698116, 1499217, 2055),
    (699695, 1499176, 2051), (701275, 1499135, 2047), (702854, 1499094, 2043),
    (704433, 1499054, 2039), (706012, 1499014, 2036), (707591, 1498974, 2032),
    (709170, 1498935, 2028), (710748, 1498896, 2025), (712326, 1498857, 2021),
    (713905, 1498818, 2017), (715483, 1498780, 2014), (717061, 1498742, 2010),
    (718638, 1498704, 2007), (720216, 1498667, 2003), (721793, 1498630, 2000)] ++ [
    (723371, 1498593, 1996), (724948, 1498556, 1993), (726525, 1498520, 1989),
    (728101, 1498484, 1986), (729678, 1498448, 1982), (731255, 1498413, 1979),
    (732831, 1498377, 1975), (734407, 1498342, 1972), (735983, 1498308, 1969),
    (737559, 1498273, 1965), (739135, 1498239, 1962), (740710, 1498205, 1959),
    (742286, 1498171, 1956), (743861, 1498137, 1952), (745436, 1498104, 1949),
    (747011, 1498071, 1946), (748585, 1498038, 1943), (750160, 1498006, 1940),
    (751734, 1497973, 1937), (753308, 1497941, 1933), (754883, 1497909, 1930),
    (756456, 1497877, 1927), (758030, 1497846, 1924), (759604, 1497815, 1921),
    (761177, 1497783, 1918), (762750, 1497753, 1915), (764323, 1497722, 1912),
    (765896, 1497692, 1909), (767469, 1497661, 1906), (769042, 1497631, 1903),
    (770614, 1497601, 1900), (772186, 1497572, 1897), (773758, 1497542, 1895),
    (775330, 1497513, 1892), (776902, 1497484, 1889), (778473, 1497455, 1886),
    (780045, 1497427, 1883), (781616, 1497398, 1880), (783187, 1497370, 1878),
    (784758, 1497342, 1875), (786328, 1497314, 1872), (787899, 1497286, 1869),
    (789469, 1497259, 1867), (791039, 1497232, 1864), (792609, 1497204, 1861),
    (794179, 1497177, 1858), (795748, 1497151, 1856), (797318, 1497124, 1853),
    (798887, 1497098, 1850), (800456, 1497071, 1848), (802025, 1497045, 1845),
    (803593, 1497019, 1843), (805162, 1496994, 1840), (806730, 1496968, 1837),
    (808298, 1496943, 1835), (809866, 1496917, 1832), (811434, 1496892, 1830),
    (813001, 1496867, 1827), (814569, 1496843, 1825), (816136, 1496818, 1822),
    (817703, 1496793, 1820), (819270, 1496769, 1817), (820836, 1496745, 1815),
    (822403, 1496721, 1812), (823969, 1496697, 1810), (825535, 1496673, 1808),
    (827101, 1496650, 1805), (828667, 1496626, 1803), (830232, 1496603, 1800),
    (831798, 1496580, 1798), (833363, 1496557, 1796), (834928, 1496534, 1793),
    (836492, 1496511, 1791), (838057, 1496489, 1789), (839621, 1496467, 1786),
    (841185, 1496444, 1784), (842749, 1496422, 1782), (844313, 1496400, 1780),
    (845877, 1496378, 1777), (847440, 1496356, 1775), (849003, 1496335, 1773),
    (850566, 1496313, 1771), (852129, 1496292, 1768), (853691, 1496271, 1766),
    (855254, 1496250, 1764), (856816, 1496229, 1762), (858378, 1496208, 1760),
    (859940, 1496187, 1758), (861501, 1496167, 1755), (863063, 1496146, 1753),
    (864624, 1496126, 1751), (866185, 1496106, 1749), (867745, 1496086, 1747),
    (869306, 1496065, 1745), (870866, 1496046, 1743), (872426, 1496026, 1741),
    (873986, 1496006, 1739), (875546, 1495987, 1737), (877106, 1495967, 1735),
    (878665, 1495948, 1733)] ++ [ (880224, 1495929, 1730), (881783, 1495910, 1728),
    (883341, 1495891, 1726), (884900, 1495872, 1724), (886458, 1495853, 1722),
    (888016, 1495835, 1721), (889574, 1495816, 1719), (891132, 1495798, 1717),
    (892689, 1495779, 1715), (894246, 1495761, 1713), (895803, 1495743, 1711),
    (897360, 1495725, 1709), (898917, 1495707, 1707), (900473, 1495690, 1705),
    (902029, 1495672, 1703), (903585, 1495654, 1701), (905141, 1495637, 1699),
    (906696, 1495619, 1698), (908252, 1495602, 1696), (909807, 1495585, 1694),
    (911362, 1495568, 1692), (912916, 1495551, 1690), (914471, 1495534, 1688),
    (916025, 1495517, 1687), (917579, 1495500, 1685), (919132, 1495484, 1683),
    (920686, 1495467, 1681), (922239, 1495451, 1679), (923792, 1495434, 1678),
    (925345, 1495418, 1676), (926898, 1495402, 1674), (928450, 1495386, 1672),
    (930002, 1495370, 1671), (931554, 1495354, 1669), (933106, 1495338, 1667),
    (934658, 1495322, 1665), (936209, 1495307, 1664), (937760, 1495291, 1662),
    (939311, 1495276, 1660), (940861, 1495260, 1659), (942412, 1495245, 1657),
    (943962, 1495230, 1655), (945512, 1495215, 1654), (947061, 1495200, 1652),
    (948611, 1495185, 1650), (950160, 1495170, 1649), (951709, 1495155, 1647),
    (953258, 1495140, 1645), (954806, 1495126, 1644), (956354, 1495111, 1642),
    (957902, 1495096, 1641), (959450, 1495082, 1639), (960998, 1495068, 1637),
    (962545, 1495053, 1636), (964092, 1495039, 1634), (965639, 1495025, 1633),
    (967186, 1495011, 1631), (968732, 1494997, 1629), (970278, 1494983, 1628),
    (971824, 1494969, 1626), (973370, 1494955, 1625), (974915, 1494942, 1623),
    (976461, 1494928, 1622), (978005, 1494915, 1620), (979550, 1494901, 1619),
    (981095, 1494888, 1617), (982639, 1494874, 1616), (984183, 1494861, 1614),
    (985727, 1494848, 1613), (987270, 1494835, 1611), (988813, 1494822, 1610),
    (990356, 1494809, 1608), (991899, 1494796, 1607), (993442, 1494783, 1605),
    (994984, 1494770, 1604), (996526, 1494757, 1603), (998068, 1494745, 1601),
    (999609, 1494732, 1600), (1012269, 1494631, 1588), (1015673, 1494604, 1585),
    (1019077, 1494578, 1582), (1022481, 1494552, 1579), (1025884, 1494526, 1576),
    (1029287, 1494501, 1573), (1032690, 1494475, 1570), (1036093, 1494451, 1567),
    (1039496, 1494426, 1564), (1042899, 1494401, 1562), (1046301, 1494377, 1559),
    (1049703, 1494353, 1556), (1053105, 1494330, 1553), (1056507, 1494306, 1550),
    (1059909, 1494283, 1548), (1063311, 1494260, 1545), (1066713, 1494238, 1542),
    (1070115, 1494215, 1540), (1073516, 1494193, 1537), (1076917, 1494171, 1534),
    (1080319, 1494149, 1532), (1083720, 1494127, 1529)] ++ [ (1087121, 1494106, 1527),
    (1090523, 1494085, 1524), (1093924, 1494064, 1522), (1097325, 1494043, 1519),
    (1100726, 1494022, 1517), (1104127, 1494002, 1514), (1107529, 1493982, 1512),
    (1110930, 1493962, 1509), (1114331, 1493942, 1507), (1117732, 1493922, 1505),
    (1121133, 1493903, 1502), (1124534, 1493884, 1500), (1127935, 1493865, 1498),
    (1131337, 1493846, 1495), (1134738, 1493827, 1493), (1138139, 1493809, 1491),
    (1141541, 1493790, 1488), (1144943, 1493772, 1486), (1148344, 1493754, 1484),
    (1151746, 1493736, 1482), (1155148, 1493719, 1480), (1158550, 1493701, 1477),
    (1161952, 1493684, 1475), (1165354, 1493667, 1473), (1168756, 1493650, 1471),
    (1172158, 1493633, 1469), (1175561, 1493616, 1467), (1178964, 1493599, 1465),
    (1182367, 1493583, 1463), (1185770, 1493567, 1460), (1189173, 1493551, 1458),
    (1192576, 1493535, 1456), (1195980, 1493519, 1454), (1199384, 1493503, 1452),
    (1202788, 1493487, 1450), (1206192, 1493472, 1448), (1209596, 1493457, 1446),
    (1213001, 1493442, 1445), (1216406, 1493426, 1443), (1219811, 1493412, 1441),
    (1223216, 1493397, 1439), (1226622, 1493382, 1437), (1230028, 1493368, 1435),
    (1233434, 1493353, 1433), (1236840, 1493339, 1431), (1240247, 1493325, 1429),
    (1243654, 1493311, 1428), (1247062, 1493297, 1426), (1250469, 1493283, 1424),
    (1253877, 1493269, 1422), (1257286, 1493256, 1420), (1260694, 1493242, 1419),
    (1264103, 1493229, 1417), (1267512, 1493216, 1415), (1270922, 1493202, 1413),
    (1274332, 1493189, 1412), (1277743, 1493176, 1410), (1281154, 1493164, 1408),
    (1284565, 1493151, 1407), (1287976, 1493138, 1405), (1291388, 1493126, 1403),
    (1294801, 1493114, 1402), (1298214, 1493101, 1400), (1301627, 1493089, 1398),
    (1305040, 1493077, 1397), (1308455, 1493065, 1395), (1311869, 1493053, 1393),
    (1315284, 1493041, 1392), (1318700, 1493029, 1390), (1322116, 1493018, 1389),
    (1325532, 1493006, 1387), (1328949, 1492995, 1386), (1332366, 1492983, 1384),
    (1335784, 1492972, 1382), (1339203, 1492961, 1381), (1342622, 1492950, 1379),
    (1346041, 1492939, 1378), (1349461, 1492928, 1376), (1352882, 1492917, 1375),
    (1356303, 1492906, 1373), (1359724, 1492895, 1372), (1363147, 1492885, 1371),
    (1366569, 1492874, 1369), (1369993, 1492864, 1368), (1373417, 1492854, 1366),
    (1376841, 1492843, 1365), (1380266, 1492833, 1363), (1383692, 1492823, 1362),
    (1387118, 1492813, 1360), (1390545, 1492803, 1359), (1393973, 1492793, 1358),
    (1397401, 1492783, 1356), (1400830, 1492773, 1355), (1404260, 1492764, 1354),
    (1407690, 1492754, 1352), (1411121, 1492745, 1351), (1414552, 1492735, 1349),
    (1417985, 1492726, 1348), (1421418, 1492716, 1347), (1424851, 1492707, 1346)] ++ [
    (1428286, 1492698, 1344), (1431721, 1492689, 1343), (1435156, 1492680, 1342),
    (1438593, 1492671, 1340), (1442030, 1492662, 1339), (1445468, 1492653, 1338),
    (1448907, 1492644, 1336), (1452346, 1492635, 1335), (1455787, 1492627, 1334),
    (1459228, 1492618, 1333), (1462669, 1492609, 1331), (1466112, 1492601, 1330),
    (1469555, 1492592, 1329), (1473000, 1492584, 1328), (1476445, 1492576, 1327),
    (1479891, 1492567, 1325), (1483337, 1492559, 1324), (1486785, 1492551, 1323),
    (1490233, 1492543, 1322), (1493682, 1492535, 1321), (1497132, 1492527, 1319),
    (1500583, 1492519, 1318), (1504035, 1492511, 1317), (1507488, 1492503, 1316),
    (1510942, 1492495, 1315), (1514396, 1492488, 1314), (1517851, 1492480, 1312),
    (1521308, 1492472, 1311), (1524765, 1492465, 1310), (1528223, 1492457, 1309),
    (1531682, 1492450, 1308), (1535142, 1492442, 1307), (1538603, 1492435, 1306),
    (1542065, 1492428, 1305), (1545528, 1492420, 1303), (1548992, 1492413, 1302),
    (1552457, 1492406, 1301), (1555922, 1492399, 1300), (1559389, 1492392, 1299),
    (1562857, 1492385, 1298), (1566326, 1492378, 1297), (1569796, 1492371, 1296),
    (1573267, 1492364, 1295), (1576739, 1492357, 1294), (1580212, 1492350, 1293),
    (1583686, 1492343, 1292), (1587161, 1492337, 1291), (1590637, 1492330, 1290),
    (1594114, 1492323, 1289), (1597592, 1492317, 1288), (1601072, 1492310, 1287),
    (1604552, 1492304, 1286), (1608034, 1492297, 1285), (1611516, 1492291, 1284),
    (1615000, 1492284, 1283), (1618485, 1492278, 1282), (1621971, 1492272, 1281),
    (1625458, 1492265, 1280), (1628947, 1492259, 1279), (1632436, 1492253, 1278),
    (1635927, 1492247, 1277), (1639419, 1492241, 1276), (1642912, 1492235, 1275),
    (1646406, 1492229, 1274), (1649901, 1492223, 1273), (1653398, 1492217, 1272),
    (1656896, 1492211, 1271), (1660395, 1492205, 1270), (1663895, 1492199, 1269),
    (1667396, 1492193, 1268), (1670899, 1492187, 1267), (1674403, 1492182, 1266),
    (1677908, 1492176, 1265), (1681415, 1492170, 1265), (1684922, 1492164, 1264),
    (1688431, 1492159, 1263)]

/-- refellips/materials/polystyrene.csv, 617 rows. -/
def polystyreneRaw : RawMaterial where
  name := "polystyrene"
  dw := 4
  dn := 5
  dk := 9
  hasK := true
  rows :=
    [
    (4000, 162552, 813), (4100, 162163, 728), (4200, 161834, 682), (4300, 161546, 670),
    (4400, 161279, 650), (4500, 161037, 633), (4600, 160797, 612), (4700, 160594, 602),
    (4800, 160372, 609), (4900, 160201, 625), (5000, 160021, 611), (5100, 159862, 612),
    (5200, 159721, 572), (5300, 159587, 562), (5400, 159443, 570), (5500, 159338, 578),
    (5600, 159217, 607), (5700, 159084, 586), (5800, 158996, 595), (5900, 158898, 583),
    (6000, 158820, 636), (6100, 158734, 631), (6200, 158653, 593), (6300, 158554, 614),
    (6400, 158493, 627), (6500, 158426, 583), (6600, 158359, 586), (6700, 158300, 573),
    (6800, 158237, 564), (6900, 158180, 582), (7000, 158128, 564), (7100, 158061, 602),
    (7200, 158022, 555), (7300, 157972, 576), (7400, 157926, 567), (7500, 157889, 551),
    (7600, 157821, 598), (7700, 157770, 608), (7800, 157746, 546), (7900, 157703, 545),
    (8000, 157674, 554), (8100, 157637, 555), (8200, 157618, 448), (8300, 157580, 421),
    (8400, 157563, 534), (8500, 157539, 511), (8600, 157513, 529), (8700, 157489, 1220),
    (8800, 157451, 911), (8900, 157437, 820), (9000, 157409, 535), (9100, 157387, 493),
    (9200, 157362, 393), (9300, 157343, 285), (9400, 157315, 816), (9500, 157292, 400),
    (9600, 157285, 471), (9700, 157256, 204), (9800, 157231, 234), (9900, 157216, 434),
    (10000, 157211, 349), (10100, 157197, 734), (10200, 157197, 739), (10300, 156996, 1010),
    (10400, 157013, 961), (10500, 156990, 982), (10600, 156958, 936), (10700, 156904, 904),
    (10800, 156938, 895), (10900, 156916, 1250), (11000, 156904, 1100), (11100, 156911, 1350),
    (11200, 156854, 1880), (11300, 156870, 4120), (11400, 156779, 11300), (11500, 156805, 11400),
    (11600, 156801, 4520), (11700, 156851, 2960), (11800, 156822, 2450), (11900, 156803, 3440),
    (12000, 156767, 4600), (12100, 156757, 5240), (12200, 156707, 4030), (12300, 156707, 2790),
    (12400, 156665, 2060), (12500, 156688, 1680), (12600, 156667, 1660), (12700, 156692, 1880),
    (12800, 156712, 1270), (12900, 156643, 1270), (13000, 156571, 1510), (13100, 156643, 1430),
    (13200, 156600, 1570), (13300, 156583, 1740), (13400, 156593, 2030), (13500, 156618, 2280),
    (13600, 156572, 2050), (13700, 156639, 3550), (13800, 156551, 4000), (13900, 156555, 4780)] ++ [
    (14000, 156579, 5050), (14100, 156531, 5760), (14200, 156534, 6120), (14300, 156508, 5240),
    (14400, 156510, 5080), (14500, 156522, 4490), (14600, 156532, 4010), (14700, 156522, 4000),
    (14800, 156510, 4650), (14900, 156533, 3230), (15000, 156463, 3060), (15100, 156471, 2820),
    (15200, 156419, 2640), (15300, 156448, 2450), (15400, 156478, 2250), (15500, 156484, 1890),
    (15600, 156451, 1960), (15700, 156462, 2130), (15800, 156449, 2410), (15900, 156403, 2840),
    (16000, 156384, 3320), (16100, 156384, 4460), (16200, 156447, 8110), (16300, 156402, 19200),
    (16400, 156432, 26800), (16500, 156402, 24200), (16600, 156391, 38700), (16700, 156342, 105000),
    (16800, 156376, 160000), (16900, 156360, 137000), (17000, 156341, 84600),
    (17100, 156341, 54200), (17200, 156363, 48000), (17300, 156390, 44000), (17400, 156383, 27300),
    (17500, 156336, 33400), (17600, 156349, 41700), (17700, 156337, 36200), (17800, 156328, 27200),
    (17900, 156336, 30600), (18000, 156314, 29100), (18100, 156316, 29700), (18200, 156293, 27200),
    (18300, 156309, 24400), (18400, 156296, 24800), (18500, 156285, 25600), (18600, 156279, 26800),
    (18700, 156320, 24600), (18800, 156337, 21800), (18900, 156296, 21400), (19000, 156302, 21100),
    (19100, 156310, 21400), (19200, 156270, 19700), (19300, 156293, 18900), (19400, 156262, 18500),
    (19500, 156275, 19200), (19600, 156273, 18400), (19700, 156303, 17900), (19800, 156332, 17900),
    (19900, 156277, 17500), (20000, 156256, 17600), (20097, 158013, 21400), (20190, 157816, 24500),
    (20285, 157629, 31000), (20381, 157637, 36900), (20478, 157668, 37700), (20575, 157491, 39100),
    (20673, 157307, 40500), (20773, 157276, 41300), (20873, 157268, 42900), (20975, 156960, 46000),
    (21077, 156498, 50500), (21180, 156087, 58400), (21285, 155940, 74400), (21390, 156039, 100000),
    (21496, 156007, 3390000), (21568, 155891, 3890000), (21676, 155850, 3880000),
    (21785, 155899, 3590000), (21896, 155948, 4300000), (21970, 155989, 4750000),
    (22082, 155992, 97900), (22196, 155973, 90500), (22272, 155961, 85100), (22387, 155943, 79700),
    (22465, 155951, 80300), (22582, 155937, 86300), (22661, 155898, 93200),
    (22781, 155863, 3390000), (22861, 155819, 3730000), (22983, 155770, 4100000),
    (23065, 155805, 3870000), (23188, 155974, 3620000), (23272, 155972, 3530000),
    (23398, 155890, 3760000), (23482, 155899, 3950000), (23568, 155953, 4270000),
    (23697, 155926, 4370000), (23784, 155910, 3700000), (23872, 155927, 3620000)] ++ [
    (23960, 155926, 3730000), (24093, 156026, 3600000), (24183, 156061, 3660000),
    (24274, 155998, 3840000), (24365, 155879, 3740000), (24457, 155783, 3130000),
    (24596, 155785, 2890000), (24690, 155840, 3700000), (24784, 155913, 4510000),
    (24880, 155901, 4330000), (24975, 155826, 3470000), (25072, 155814, 3210000),
    (25169, 155819, 2960000), (25268, 155786, 2690000), (25366, 155789, 3150000),
    (25466, 155834, 3640000), (25567, 155903, 4060000), (25668, 155995, 4180000),
    (25770, 156012, 3910000), (25873, 155993, 3480000), (25976, 155931, 2930000),
    (26081, 155863, 3050000), (26186, 155816, 3370000), (26293, 155779, 3950000),
    (26400, 155723, 4260000), (26454, 155694, 3940000), (26562, 155653, 3080000),
    (26671, 155665, 3390000), (26782, 155659, 3670000), (26893, 155643, 3070000),
    (26949, 155634, 2730000), (27061, 155665, 3030000), (27175, 155711, 4190000),
    (27289, 155817, 4070000), (27347, 155843, 3540000), (27462, 155782, 2820000),
    (27579, 155683, 2550000), (27697, 155700, 2340000), (27756, 155730, 2560000),
    (27876, 155717, 3090000), (27996, 155649, 3240000), (28057, 155653, 3270000),
    (28179, 155696, 3560000), (28240, 155672, 3620000), (28364, 155635, 3540000),
    (28489, 155664, 3610000), (28551, 155686, 3480000), (28678, 155703, 3250000),
    (28741, 155694, 3320000), (28869, 155628, 3390000), (28998, 155591, 3680000),
    (29063, 155585, 3760000), (29194, 155621, 136000), (29260, 155646, 129000),
    (29393, 155658, 123000), (29460, 155647, 121000), (29594, 155598, 115000),
    (29662, 155596, 112000), (29798, 155631, 108000), (29867, 155639, 110000),
    (29936, 155639, 113000), (30075, 155579, 118000), (30145, 155535, 120000),
    (30286, 155510, 125000), (30357, 155549, 129000), (30499, 155524, 2220000),
    (30571, 155478, 1860000), (30644, 155469, 1860000), (30789, 155481, 2490000),
    (30863, 155475, 2590000), (30936, 155461, 2560000), (31085, 155413, 2570000),
    (31159, 155343, 2690000), (31234, 155254, 2970000), (31386, 155237, 2890000),
    (31462, 155284, 2560000), (31538, 155295, 2360000), (31693, 155180, 2760000),
    (31770, 155058, 2970000), (31848, 154952, 3110000), (31927, 154870, 3140000),
    (32085, 154737, 3330000), (32164, 154672, 4250000), (32244, 154610, 5860000),
    (32325, 154574, 8030000), (32487, 154667, 11900000), (32569, 154742, 13300000),
    (32651, 154859, 14300000), (32733, 154943, 14000000), (32899, 154754, 16500000),
    (32983, 155034, 21100000), (33067, 155720, 22200000), (33152, 156264, 17500000),
    (33237, 156325, 11400000), (33322, 156116, 7900000), (33494, 155613, 5820000),
    (33581, 155359, 6230000), (33668, 155094, 7250000), (33756, 154799, 8480000),
    (33844, 154482, 10800000)] ++ [ (33933, 154232, 15900000), (34022, 154242, 23700000),
    (34111, 154738, 31700000), (34292, 156790, 33300000), (34383, 157444, 26900000),
    (34474, 157594, 19900000), (34566, 157450, 14400000), (34658, 157221, 11200000),
    (34751, 156992, 9740000), (34845, 156755, 9930000), (34939, 156622, 11400000),
    (35033, 156748, 12600000), (35128, 157044, 11500000), (35224, 157216, 8270000),
    (35320, 157146, 5450000), (35416, 156961, 4040000), (35513, 156806, 3480000),
    (35611, 156727, 3220000), (35709, 156652, 3210000), (35807, 156547, 3380000),
    (35907, 156457, 3270000), (36006, 156415, 2970000), (36107, 156381, 2840000),
    (36207, 156328, 2600000), (36309, 156280, 2290000), (36411, 156239, 2300000),
    (36513, 156192, 2640000), (36617, 156144, 2940000), (36720, 156127, 3060000),
    (36825, 156138, 3030000), (36930, 156128, 2920000), (37035, 156089, 2900000),
    (37141, 156071, 2950000), (37248, 156086, 3130000), (37355, 156092, 3380000),
    (37463, 156068, 3510000), (37572, 156050, 3280000), (37681, 156048, 3050000),
    (37791, 156028, 3110000), (37901, 156018, 3140000), (38013, 156034, 3030000),
    (38124, 156015, 2900000), (38237, 155957, 3020000), (38350, 155941, 3170000),
    (38464, 155970, 3190000), (38578, 155988, 3220000), (38693, 155972, 3260000),
    (38809, 155938, 3310000), (38926, 155896, 3260000), (39043, 155875, 3000000),
    (39161, 155887, 2660000), (39280, 155887, 2560000), (39399, 155866, 2730000),
    (39519, 155855, 2970000), (39640, 155858, 2970000), (39762, 155843, 2910000),
    (39884, 155839, 3090000), (40007, 155857, 3290000), (40131, 155861, 3260000),
    (40255, 155840, 3040000), (40381, 155822, 2830000), (40507, 155804, 2760000),
    (40634, 155792, 2840000), (40762, 155779, 2830000), (40890, 155757, 2860000),
    (41020, 155727, 2920000), (41150, 155716, 2960000), (41281, 155718, 3020000),
    (41413, 155739, 2890000), (41546, 155747, 2600000), (41679, 155724, 2580000),
    (41814, 155699, 2880000), (41949, 155713, 3230000), (42085, 155751, 3500000),
    (42222, 155757, 3660000), (42360, 155669, 3830000), (42499, 155643, 3790000),
    (42639, 155646, 3670000), (42780, 155630, 3790000), (42921, 155709, 3820000),
    (43064, 155771, 3620000), (43208, 155718, 3300000), (43352, 155666, 2970000),
    (43498, 155664, 2880000), (43644, 155657, 2930000), (43791, 155643, 2980000),
    (43940, 155627, 3020000), (44089, 155631, 3040000), (44240, 155644, 2850000),
    (44391, 155643, 2590000), (44544, 155641, 2500000), (44697, 155634, 2750000),
    (44852, 155621, 2990000), (45008, 155614, 3070000), (45165, 155585, 3200000),
    (45323, 155561, 3280000), (45482, 155570, 3180000), (45642, 155575, 3120000),
    (45803, 155531, 3050000), (45965, 155514, 2970000)] ++ [ (46129, 155533, 2930000),
    (46294, 155535, 2890000), (46460, 155495, 2840000), (46627, 155465, 2630000),
    (46795, 155464, 2460000), (46965, 155475, 2700000), (47136, 155470, 3050000),
    (47308, 155428, 3210000), (47481, 155408, 3100000), (47655, 155416, 2800000),
    (47831, 155415, 2700000), (48008, 155417, 2800000), (48187, 155420, 2980000),
    (48367, 155417, 3100000), (48548, 155410, 3060000), (48730, 155375, 3060000),
    (48914, 155330, 3040000), (49100, 155332, 2860000), (49286, 155334, 2920000),
    (49474, 155310, 3230000), (49664, 155286, 3250000), (49855, 155265, 3030000),
    (50047, 155226, 3020000), (50241, 155203, 3240000), (50437, 155185, 3410000),
    (50634, 155126, 3550000), (50832, 155079, 4370000), (51033, 155096, 5210000),
    (51234, 155143, 5740000), (51438, 155238, 6260000), (51643, 155309, 5860000),
    (51849, 155309, 4940000), (52057, 155291, 4160000), (52267, 155242, 3440000),
    (52479, 155154, 3290000), (52692, 155087, 3770000), (52907, 155092, 4430000),
    (53124, 155125, 5120000), (53343, 155189, 5730000), (53563, 155271, 5660000),
    (53785, 155289, 4660000), (54009, 155242, 3740000), (54235, 155176, 3410000),
    (54463, 155092, 3650000), (54693, 154993, 4020000), (54925, 154945, 4340000),
    (55159, 155002, 5090000), (55394, 155082, 5960000), (55632, 155129, 5640000),
    (55872, 155144, 4510000), (56114, 155129, 3690000), (56358, 155042, 3560000),
    (56604, 154767, 5410000), (56852, 154548, 9800000), (57103, 154690, 13600000),
    (57355, 155012, 14600000), (57610, 155263, 12700000), (57867, 155358, 9840000),
    (58127, 155303, 8330000), (58389, 155243, 7200000), (58653, 155166, 6260000),
    (58919, 155034, 5980000), (59188, 154980, 5720000), (59460, 154978, 5460000),
    (59734, 154902, 5580000), (60011, 154853, 5430000), (60290, 154880, 4870000),
    (60571, 154830, 4580000), (60856, 154720, 4690000), (61143, 154587, 4570000),
    (61433, 154460, 4410000), (61725, 154228, 4790000), (62020, 153801, 9800000),
    (62319, 154106, 18500000), (62620, 155100, 18700000), (62924, 155443, 12400000),
    (63231, 155355, 9440000), (63541, 155229, 6640000), (63854, 154999, 4610000),
    (64170, 154766, 4570000), (64489, 154569, 5460000), (64811, 154468, 5750000),
    (65137, 154380, 4910000), (65466, 154200, 4420000), (65798, 153885, 4700000),
    (66134, 153305, 4690000), (66473, 152191, 15200000), (66816, 153047, 38500000),
    (67162, 155656, 37100000), (67512, 156128, 16700000), (67865, 154797, 7570000),
    (68223, 153477, 12100000), (68583, 153216, 34500000), (68948, 155525, 49600000),
    (69317, 157473, 33600000), (69690, 157327, 15300000), (70066, 156564, 8670000),
    (70447, 156021, 6450000), (70832, 155686, 5550000), (71221, 155434, 5470000)] ++ [
    (71615, 155165, 6640000), (72013, 154919, 9690000), (72415, 154836, 13900000),
    (72822, 154989, 16900000), (73233, 155292, 16900000), (73649, 155430, 14500000),
    (74070, 155372, 12400000), (74496, 155275, 11000000), (74926, 155139, 10300000),
    (75362, 155114, 10100000), (75803, 155236, 10300000), (76249, 155343, 10500000),
    (76700, 155343, 10500000), (77156, 155233, 10300000), (77618, 155192, 10400000),
    (78086, 155172, 9920000), (78559, 154956, 9620000), (79038, 154608, 12100000),
    (79523, 154331, 17200000), (80014, 154200, 23600000), (80511, 154343, 28900000),
    (81014, 154802, 31400000), (81524, 155321, 29800000), (82040, 155586, 25700000),
    (82562, 155640, 20900000), (83091, 155559, 17100000), (83628, 155301, 14900000),
    (84171, 155099, 14400000), (84721, 155104, 14500000), (85278, 155150, 13800000),
    (85843, 154998, 14500000), (86415, 154990, 15500000), (86995, 155147, 13500000),
    (87583, 155161, 10600000), (88179, 155022, 10000000), (88783, 154766, 10700000),
    (89395, 154586, 11500000), (90016, 154482, 12200000), (90645, 154190, 12800000),
    (91284, 153896, 14800000), (91931, 153765, 19000000), (92588, 153795, 25000000),
    (93254, 154121, 30600000), (93930, 154636, 31800000), (94615, 155001, 31100000),
    (95311, 155209, 30600000), (96017, 155102, 31100000), (96733, 155269, 35400000),
    (97461, 156222, 35400000), (98199, 156781, 26200000), (98949, 156524, 19300000),
    (99710, 156224, 16600000), (100480, 155968, 14100000), (101270, 155747, 13200000),
    (102070, 155574, 13700000), (102880, 155526, 14700000), (103700, 155465, 14400000),
    (104530, 155306, 12300000), (105380, 155192, 11500000), (106250, 155098, 12100000),
    (107130, 154956, 11900000), (108020, 154717, 12700000), (108930, 154469, 16200000),
    (109850, 154702, 20400000), (110790, 155262, 19600000), (111740, 155390, 13300000),
    (112720, 155142, 8860000), (113700, 154911, 8350000), (114710, 154510, 8180000),
    (115730, 154091, 8040000), (116780, 153725, 9070000), (117840, 153594, 11300000),
    (118920, 153690, 11600000), (120020, 153612, 9750000), (121140, 153241, 8560000),
    (122290, 152903, 7480000), (123450, 152404, 6540000), (124640, 151713, 8220000),
    (125850, 150745, 10400000), (127080, 149456, 14700000), (128340, 148175, 28900000),
    (129620, 147675, 57200000), (130930, 149226, 89100000), (132270, 152708, 105000000),
    (133630, 156176, 90700000), (135020, 157437, 56600000), (136450, 155760, 28200000),
    (137900, 152389, 17700000), (139380, 146750, 21700000), (140890, 140602, 132000000),
    (142440, 151292, 322000000), (144030, 172776, 290000000), (145640, 175952, 90500000),
    (147300, 167295, 16700000), (148990, 164037, 17300000), (150720, 162211, 12800000),
    (152500, 161111, 11800000), (154310, 160119, 10600000), (156170, 159346, 11300000),
    (158080, 158726, 12200000)] ++ [ (160030, 158261, 14200000), (162030, 158041, 15400000),
    (164080, 157934, 16700000), (166180, 157655, 18600000), (168340, 157118, 18900000),
    (170560, 156573, 18200000), (172830, 156074, 22700000), (175170, 155877, 30800000),
    (177570, 155947, 37700000), (180030, 156334, 44500000), (182570, 157361, 57000000),
    (185180, 159413, 63700000), (187860, 161088, 48600000), (190620, 161181, 27300000),
    (193470, 160843, 18700000), (196400, 160549, 19300000), (199420, 159856, 16500000)]

/-- refellips/materials/silica.csv, 451 rows. -/
def silicaRaw : RawMaterial where
  name := "silica"
  dw := 3
  dn := 6
  dk := 6
  hasK := true
  rows :=
    [
    (250, 1517462, 260), (255, 1515228, 240), (260, 1513136, 222), (265, 1511173, 206),
    (270, 1509329, 191), (275, 1507595, 179), (280, 1505961, 167), (285, 1504421, 157),
    (290, 1502966, 148), (295, 1501590, 139), (300, 1500288, 132), (305, 1499055, 125),
    (310, 1497885, 118), (315, 1496774, 112), (320, 1495719, 107), (325, 1494715, 102),
    (330, 1493759, 0), (335, 1492849, 0), (340, 1491981, 0), (345, 1491152, 0), (350, 1490361, 0),
    (355, 1489605, 0), (360, 1488882, 0), (365, 1488189, 0), (370, 1487527, 0), (375, 1486891, 0),
    (380, 1486282, 0), (385, 1485698, 0), (390, 1485137, 0), (395, 1484598, 0), (400, 1484080, 0),
    (405, 1483582, 0), (410, 1483102, 0), (415, 1482641, 0), (420, 1482197, 0), (425, 1481768, 0),
    (430, 1481356, 0), (435, 1480958, 0), (440, 1480573, 0), (445, 1480203, 0), (450, 1479844, 0),
    (455, 1479498, 0), (460, 1479164, 0), (465, 1478841, 0), (470, 1478528, 0), (475, 1478225, 0),
    (480, 1477932, 0), (485, 1477649, 0), (490, 1477374, 0), (495, 1477107, 0), (500, 1476849, 0),
    (505, 1476599, 0), (510, 1476356, 0), (515, 1476121, 0), (520, 1475892, 0), (525, 1475670, 0),
    (530, 1475455, 0), (535, 1475245, 0), (540, 1475042, 0), (545, 1474844, 0), (550, 1474652, 0),
    (555, 1474464, 0), (560, 1474283, 0), (565, 1474106, 0), (570, 1473933, 0), (575, 1473766, 0),
    (580, 1473602, 0), (585, 1473443, 0), (590, 1473288, 0), (595, 1473137, 0), (600, 1472990, 0),
    (605, 1472847, 0), (610, 1472707, 0), (615, 1472570, 0), (620, 1472437, 0), (625, 1472307, 0),
    (630, 1472181, 0), (635, 1472057, 0), (640, 1471936, 0), (645, 1471818, 0), (650, 1471703, 0),
    (655, 1471591, 0), (660, 1471481, 0), (665, 1471373, 0), (670, 1471268, 0), (675, 1471166, 0),
    (680, 1471065, 0), (685, 1470967, 0), (690, 1470871, 0), (695, 1470778, 0), (700, 1470686, 0),
    (705, 1470596, 0), (710, 1470508, 0), (715, 1470422, 0), (720, 1470338, 0), (725, 1470255, 0),
    (730, 1470174, 0), (735, 1470095, 0), (740, 1470018, 0), (745, 1469942, 0)] ++ [
    (750, 1469867, 0), (755, 1469794, 0), (760, 1469723, 0), (765, 1469653, 0), (770, 1469584, 0),
    (775, 1469517, 0), (780, 1469451, 0), (785, 1469386, 0), (790, 1469323, 0), (795, 1469260, 0),
    (800, 1469199, 0), (805, 1469139, 0), (810, 1469080, 0), (815, 1469023, 0), (820, 1468966, 0),
    (825, 1468910, 0), (830, 1468855, 0), (835, 1468802, 0), (840, 1468749, 0), (845, 1468697, 0),
    (850, 1468646, 0), (855, 1468597, 0), (860, 1468547, 0), (865, 1468499, 0), (870, 1468452, 0),
    (875, 1468405, 0), (880, 1468360, 0), (885, 1468315, 0), (890, 1468270, 0), (895, 1468227, 0),
    (900, 1468184, 0), (905, 1468142, 0), (910, 1468101, 0), (915, 1468060, 0), (920, 1468020, 0),
    (925, 1467981, 0), (930, 1467942, 0), (935, 1467904, 0), (940, 1467866, 0), (945, 1467830, 0),
    (950, 1467793, 0), (955, 1467758, 0), (960, 1467722, 0), (965, 1467688, 0), (970, 1467654, 0),
    (975, 1467620, 0), (980, 1467587, 0), (985, 1467555, 0), (990, 1467523, 0), (995, 1467491, 0),
    (1000, 1467460, 0), (1005, 1467429, 0), (1010, 1467399, 0), (1015, 1467369, 0),
    (1020, 1467340, 0), (1025, 1467311, 0), (1030, 1467283, 0), (1035, 1467255, 0),
    (1040, 1467227, 0), (1045, 1467200, 0), (1050, 1467173, 0), (1055, 1467147, 0),
    (1060, 1467121, 0), (1065, 1467095, 0), (1070, 1467070, 0), (1075, 1467045, 0),
    (1080, 1467020, 0), (1085, 1466996, 0), (1090, 1466972, 0), (1095, 1466949, 0),
    (1100, 1466925, 0), (1105, 1466902, 0), (1110, 1466880, 0), (1115, 1466857, 0),
    (1120, 1466835, 0), (1125, 1466813, 0), (1130, 1466792, 0), (1135, 1466771, 0),
    (1140, 1466750, 0), (1145, 1466729, 0), (1150, 1466709, 0), (1155, 1466689, 0),
    (1160, 1466669, 0), (1165, 1466649, 0), (1170, 1466630, 0), (1175, 1466611, 0),
    (1180, 1466592, 0), (1185, 1466574, 0), (1190, 1466555, 0), (1195, 1466537, 0),
    (1200, 1466519, 0), (1205, 1466502, 0), (1210, 1466484, 0), (1215, 1466467, 0),
    (1220, 1466450, 0), (1225, 1466433, 0), (1230, 1466416, 0), (1235, 1466400, 0),
    (1240, 1466384, 0), (1245, 1466368, 0)] ++ [ (1250, 1466352, 0), (1255, 1466336, 0),
    (1260, 1466321, 0), (1265, 1466306, 0), (1270, 1466290, 0), (1275, 1466276, 0),
    (1280, 1466261, 0), (1285, 1466246, 0), (1290, 1466232, 0), (1295, 1466218, 0),
    (1300, 1466204, 0), (1305, 1466190, 0), (1310, 1466176, 0), (1315, 1466162, 0),
    (1320, 1466149, 0), (1325, 1466136, 0), (1330, 1466123, 0), (1335, 1466110, 0),
    (1340, 1466097, 0), (1345, 1466084, 0), (1350, 1466071, 0), (1355, 1466059, 0),
    (1360, 1466047, 0), (1365, 1466035, 0), (1370, 1466023, 0), (1375, 1466011, 0),
    (1380, 1465999, 0), (1385, 1465987, 0), (1390, 1465976, 0), (1395, 1465965, 0),
    (1400, 1465953, 0), (1405, 1465942, 0), (1410, 1465931, 0), (1415, 1465920, 0),
    (1420, 1465910, 0), (1425, 1465899, 0), (1430, 1465888, 0), (1435, 1465878, 0),
    (1440, 1465868, 0), (1445, 1465857, 0), (1450, 1465847, 0), (1455, 1465837, 0),
    (1460, 1465827, 0), (1465, 1465818, 0), (1470, 1465808, 0), (1475, 1465798, 0),
    (1480, 1465789, 0), (1485, 1465779, 0), (1490, 1465770, 0), (1495, 1465761, 0),
    (1500, 1465752, 0), (1505, 1465743, 0), (1510, 1465734, 0), (1515, 1465725, 0),
    (1520, 1465716, 0), (1525, 1465707, 0), (1530, 1465699, 0), (1535, 1465690, 0),
    (1540, 1465682, 0), (1545, 1465673, 0), (1550, 1465665, 0), (1555, 1465657, 0),
    (1560, 1465649, 0), (1565, 1465641, 0), (1570, 1465633, 0), (1575, 1465625, 0),
    (1580, 1465617, 0), (1585, 1465609, 0), (1590, 1465602, 0), (1595, 1465594, 0),
    (1600, 1465587, 0), (1605, 1465579, 0), (1610, 1465572, 0), (1615, 1465564, 0),
    (1620, 1465557, 0), (1625, 1465550, 0), (1630, 1465543, 0), (1635, 1465536, 0),
    (1640, 1465529, 0), (1645, 1465522, 0), (1650, 1465515, 0), (1655, 1465508, 0),
    (1660, 1465502, 0), (1665, 1465495, 0), (1670, 1465488, 0), (1675, 1465482, 0),
    (1680, 1465475, 0), (1685, 1465469, 0), (1690, 1465462, 0), (1695, 1465456, 0),
    (1700, 1465450, 0), (1705, 1465444, 0), (1710, 1465438, 0), (1715, 1465431, 0),
    (1720, 1465425, 0), (1725, 1465419, 0), (1730, 1465413, 0), (1735, 1465408, 0),
    (1740, 1465402, 0), (1745, 1465396, 0)] ++ [ (1750, 1465390, 0), (1755, 1465385, 0),
    (1760, 1465379, 0), (1765, 1465373, 0), (1770, 1465368, 0), (1775, 1465362, 0),
    (1780, 1465357, 0), (1785, 1465351, 0), (1790, 1465346, 0), (1795, 1465341, 0),
    (1800, 1465335, 0), (1805, 1465330, 0), (1810, 1465325, 0), (1815, 1465320, 0),
    (1820, 1465315, 0), (1825, 1465310, 0), (1830, 1465305, 0), (1835, 1465300, 0),
    (1840, 1465295, 0), (1845, 1465290, 0), (1850, 1465285, 0), (1855, 1465280, 0),
    (1860, 1465275, 0), (1865, 1465271, 0), (1870, 1465266, 0), (1875, 1465261, 0),
    (1880, 1465257, 0), (1885, 1465252, 0), (1890, 1465248, 0), (1895, 1465243, 0),
    (1900, 1465239, 0), (1905, 1465234, 0), (1910, 1465230, 0), (1915, 1465225, 0),
    (1920, 1465221, 0), (1925, 1465217, 0), (1930, 1465212, 0), (1935, 1465208, 0),
    (1940, 1465204, 0), (1945, 1465200, 0), (1950, 1465196, 0), (1955, 1465192, 0),
    (1960, 1465187, 0), (1965, 1465183, 0), (1970, 1465179, 0), (1975, 1465175, 0),
    (1980, 1465171, 0), (1985, 1465167, 0), (1990, 1465164, 0), (1995, 1465160, 0),
    (2000, 1465156, 0), (2005, 1465152, 0), (2010, 1465148, 0), (2015, 1465145, 0),
    (2020, 1465141, 0), (2025, 1465137, 0), (2030, 1465133, 0), (2035, 1465130, 0),
    (2040, 1465126, 0), (2045, 1465123, 0), (2050, 1465119, 0), (2055, 1465115, 0),
    (2060, 1465112, 0), (2065, 1465108, 0), (2070, 1465105, 0), (2075, 1465102, 0),
    (2080, 1465098, 0), (2085, 1465095, 0), (2090, 1465091, 0), (2095, 1465088, 0),
    (2100, 1465085, 0), (2105, 1465081, 0), (2110, 1465078, 0), (2115, 1465075, 0),
    (2120, 1465072, 0), (2125, 1465069, 0), (2130, 1465065, 0), (2135, 1465062, 0),
    (2140, 1465059, 0), (2145, 1465056, 0), (2150, 1465053, 0), (2155, 1465050, 0),
    (2160, 1465047, 0), (2165, 1465044, 0), (2170, 1465041, 0), (2175, 1465038, 0),
    (2180, 1465035, 0), (2185, 1465032, 0), (2190, 1465029, 0), (2195, 1465026, 0),
    (2200, 1465023, 0), (2205, 1465020, 0), (2210, 1465017, 0), (2215, 1465015, 0),
    (2220, 1465012, 0), (2225, 1465009, 0), (2230, 1465006, 0), (2235, 1465003, 0),
    (2240, 1465001, 0), (2245, 1464998, 0)] ++ [ (2250, 1464995, 0), (2255, 1464993, 0),
    (2260, 1464990, 0), (2265, 1464987, 0), (2270, 1464985, 0), (2275, 1464982, 0),
    (2280, 1464980, 0), (2285, 1464977, 0), (2290, 1464974, 0), (2295, 1464972, 0),
    (2300, 1464969, 0), (2305, 1464967, 0), (2310, 1464964, 0), (2315, 1464962, 0),
    (2320, 1464959, 0), (2325, 1464957, 0), (2330, 1464955, 0), (2335, 1464952, 0),
    (2340, 1464950, 0), (2345, 1464947, 0), (2350, 1464945, 0), (2355, 1464943, 0),
    (2360, 1464940, 0), (2365, 1464938, 0), (2370, 1464936, 0), (2375, 1464933, 0),
    (2380, 1464931, 0), (2385, 1464929, 0), (2390, 1464927, 0), (2395, 1464924, 0),
    (2400, 1464922, 0), (2405, 1464920, 0), (2410, 1464918, 0), (2415, 1464916, 0),
    (2420, 1464913, 0), (2425, 1464911, 0), (2430, 1464909, 0), (2435, 1464907, 0),
    (2440, 1464905, 0), (2445, 1464903, 0), (2450, 1464901, 0), (2455, 1464899, 0),
    (2460, 1464897, 0), (2465, 1464895, 0), (2470, 1464892, 0), (2475, 1464890, 0),
    (2480, 1464888, 0), (2485, 1464886, 0), (2490, 1464884, 0), (2495, 1464882, 0),
    (2500, 1464881, 0)]

/-- refellips/materials/silicon.csv, 46 rows. -/
def siliconRaw : RawMaterial where
  name := "silicon"
  dw := 4
  dn := 3
  dk := 3
  hasK := true
  rows :=
    [
    (2066, 1010, 2909), (2101, 1083, 2982), (2138, 1133, 3045), (2175, 1186, 3120),
    (2214, 1247, 3206), (2254, 1340, 3302), (2296, 1471, 3366), (2339, 1579, 3353),
    (2384, 1589, 3354), (2431, 1571, 3429), (2480, 1570, 3565), (2530, 1597, 3749),
    (2583, 1658, 3979), (2638, 1764, 4278), (2695, 1988, 4678), (2755, 2452, 5082),
    (2818, 3120, 5344), (2883, 4087, 5395), (2952, 4888, 4639), (3024, 5020, 3979),
    (3100, 5010, 3586), (3179, 5016, 3346), (3263, 5065, 3182), (3351, 5156, 3058),
    (3444, 5296, 2987), (3542, 5610, 3014), (3647, 6522, 2705), (3757, 6709, 1320),
    (3875, 6062, 630), (3999, 5570, 387), (4133, 5222, 269), (4275, 4961, 203), (4428, 4753, 163),
    (4592, 4583, 130), (4769, 4442, 90), (4959, 4320, 73), (5166, 4215, 60), (5391, 4123, 48),
    (5636, 4042, 32), (5904, 3969, 30), (6199, 3906, 22), (6525, 3847, 16), (6888, 3796, 13),
    (7293, 3752, 10), (7749, 3714, 8), (8266, 3673, 5)]

/-- refellips/materials/void.csv, 2 rows. -/
def voidRaw : RawMaterial where
  name := "void"
  dw := 2
  dn := 0
  dk := 0
  hasK := true
  rows :=
    [
    (23, 1, 0), (169, 1, 0)]

/-- refellips/materials/water.csv, 169 rows. -/
def waterRaw : RawMaterial where
  name := "water"
  dw := 3
  dn := 3
  dk := 12
  hasK := true
  rows :=
    [
    (200, 1396, 110000), (225, 1373, 49000), (250, 1362, 33500), (275, 1354, 23500),
    (300, 1349, 16000), (325, 1346, 10800), (350, 1343, 6500), (375, 1341, 3500), (400, 1339, 1860),
    (425, 1338, 1300), (450, 1337, 1020), (475, 1336, 935), (500, 1335, 1000), (525, 1334, 1320),
    (550, 1333, 1960), (575, 1333, 3600), (600, 1332, 10900), (625, 1332, 13900),
    (650, 1331, 16400), (675, 1331, 22300), (700, 1331, 33500), (725, 1330, 91500),
    (750, 1330, 156000), (775, 1330, 148000), (800, 1329, 125000), (825, 1329, 182000),
    (850, 1329, 293000), (875, 1328, 391000), (900, 1328, 486000), (925, 1328, 1060000),
    (950, 1327, 2930000), (975, 1327, 3480000), (1000, 1327, 2890000), (1200, 1324, 9890000),
    (1400, 1321, 138000000), (1600, 1317, 85500000), (1800, 1312, 115000000),
    (2000, 1306, 1100000000), (2200, 1296, 289000000), (2400, 1279, 956000000),
    (2600, 1242, 3170000000), (2650, 1219, 6700000000), (2700, 1188, 19000000000),
    (2750, 1157, 59000000000), (2800, 1142, 115000000000), (2850, 1149, 185000000000),
    (2900, 1201, 268000000000), (2950, 1292, 298000000000), (3000, 1371, 272000000000),
    (3050, 1426, 240000000000), (3100, 1467, 192000000000), (3150, 1483, 135000000000),
    (3200, 1478, 92400000000), (3250, 1467, 61000000000), (3300, 1450, 36800000000),
    (3350, 1432, 26100000000), (3400, 1420, 19500000000), (3450, 1410, 13200000000),
    (3500, 1400, 9400000000), (3600, 1385, 5150000000), (3700, 1374, 3600000000),
    (3800, 1364, 3400000000), (3900, 1357, 3800000000), (4000, 1351, 4600000000),
    (4100, 1346, 5620000000), (4200, 1342, 6880000000), (4300, 1338, 8450000000),
    (4400, 1334, 10300000000), (4500, 1332, 13400000000), (4600, 1330, 14700000000),
    (4700, 1330, 15700000000), (4800, 1330, 15000000000), (4900, 1328, 13700000000),
    (5000, 1325, 12400000000), (5100, 1322, 11100000000), (5200, 1317, 10100000000),
    (5300, 1312, 9800000000), (5400, 1305, 10300000000), (5500, 1298, 11600000000),
    (5600, 1289, 14200000000), (5700, 1277, 20300000000), (5800, 1262, 33000000000),
    (5900, 1248, 62200000000), (6000, 1265, 107000000000), (6100, 1319, 131000000000),
    (6200, 1363, 88000000000), (6300, 1357, 57000000000), (6400, 1347, 44900000000),
    (6500, 1339, 39200000000), (6600, 1334, 35600000000), (6700, 1329, 33700000000),
    (6800, 1324, 32700000000), (6900, 1321, 32200000000), (7000, 1317, 32000000000),
    (7100, 1314, 32000000000), (7200, 1312, 32100000000), (7300, 1309, 32200000000),
    (7400, 1307, 32400000000), (7500, 1304, 32600000000), (7600, 1302, 32800000000)] ++ [
    (7700, 1299, 33100000000), (7800, 1297, 33500000000), (7900, 1294, 33900000000),
    (8000, 1291, 34300000000), (8200, 1286, 35100000000), (8400, 1281, 36100000000),
    (8600, 1275, 37200000000), (8800, 1269, 38500000000), (9000, 1262, 39900000000),
    (9200, 1255, 41500000000), (9400, 1247, 43300000000), (9600, 1239, 45400000000),
    (9800, 1229, 47900000000), (10000, 1218, 50800000000), (10500, 1185, 66200000000),
    (11000, 1153, 96800000000), (11500, 1126, 142000000000), (12000, 1111, 199000000000),
    (12500, 1123, 259000000000), (13000, 1146, 305000000000), (13500, 1177, 343000000000),
    (14000, 1210, 370000000000), (14500, 1241, 388000000000), (15000, 1270, 402000000000),
    (15500, 1297, 414000000000), (16000, 1325, 422000000000), (16500, 1351, 428000000000),
    (17000, 1376, 429000000000), (17500, 1401, 429000000000), (18000, 1423, 426000000000),
    (18500, 1443, 421000000000), (19000, 1461, 414000000000), (19500, 1476, 404000000000),
    (20000, 1480, 393000000000), (21000, 1487, 382000000000), (22000, 1500, 373000000000),
    (23000, 1511, 367000000000), (24000, 1521, 361000000000), (25000, 1531, 356000000000),
    (26000, 1539, 350000000000), (27000, 1545, 344000000000), (28000, 1549, 338000000000),
    (29000, 1551, 333000000000), (30000, 1551, 328000000000), (32000, 1546, 324000000000),
    (34000, 1536, 329000000000), (36000, 1527, 343000000000), (38000, 1522, 361000000000),
    (40000, 1519, 385000000000), (42000, 1522, 409000000000), (44000, 1530, 436000000000),
    (46000, 1541, 462000000000), (48000, 1555, 488000000000), (50000, 1587, 514000000000),
    (60000, 1703, 587000000000), (70000, 1821, 576000000000), (80000, 1886, 547000000000),
    (90000, 1924, 536000000000), (100000, 1957, 532000000000), (110000, 1966, 531000000000),
    (120000, 2004, 526000000000), (130000, 2036, 514000000000), (140000, 2056, 500000000000),
    (150000, 2069, 495000000000), (160000, 2081, 496000000000), (170000, 2094, 497000000000),
    (180000, 2107, 499000000000), (190000, 2119, 501000000000), (200000, 2130, 504000000000)]

/-- `materials`.  dispersion.py:17-20. -/
def bundled : List RawMaterial :=
  [airRaw, aluminiumOxideRaw, dmsoRaw, goldRaw,
   pnipamRaw, polymerDiffuseRaw, polystyreneRaw, silicaRaw,
   siliconRaw, voidRaw, waterRaw]

end Verif.Disp

import Verif.Model.F64

/-! # Model of `src/constants.rs`: GENERATED by `tools/gentables.py`, do not edit.

Each literal of the source is kept as an exact decimal `(m, s)`, meaning `m / 10^s`; the double the
compiler stores is `F64.ofDec m s`. -/

namespace HLL
namespace Constants

/-- `RAW_ESTIMATE_DATA[0]`, precision 4 (src/constants.rs:4-15). -/
def raw4 : List (ℤ × ℕ) := [
  (110, 1), (11717, 3), (12207, 3), (127896, 4), (132882, 4), (138204, 4), (143772, 4),
  (149342, 4), (155202, 4), (16161, 3), (167722, 4), (174636, 4), (180396, 4), (186766, 4),
  (193566, 4), (200454, 4), (207936, 4), (214856, 4), (222666, 4), (229946, 4), (23766, 3),
  (244692, 4), (253638, 4), (260764, 4), (267864, 4), (277602, 4), (284814, 4), (29433, 3),
  (302926, 4), (310664, 4), (319996, 4), (327956, 4), (335366, 4), (345894, 4), (355738, 4),
  (362698, 4), (373682, 4), (380544, 4), (392342, 4), (400108, 4), (407966, 4), (419298, 4),
  (428704, 4), (436358, 4), (445194, 4), (45773, 3), (466772, 4), (476174, 4), (484888, 4),
  (493304, 4), (502506, 4), (514996, 4), (523824, 4), (533078, 4), (543984, 4), (555838, 4),
  (566618, 4), (572174, 4), (583514, 4), (590802, 4), (601482, 4), (610376, 4), (623598, 4),
  (628078, 4), (639744, 4), (64914, 3), (65781, 3), (671806, 4), (680594, 4), (688446, 4),
  (697928, 4), (708248, 4), (718324, 4), (728598, 4), (736246, 4), (747014, 4), (75393, 3),
  (766708, 4), (772394, 4)]

/-- `RAW_ESTIMATE_DATA[1]`, precision 5 (src/constants.rs:17-39). -/
def raw5 : List (ℤ × ℕ) := [
  (230, 1), (231194, 4), (238208, 4), (242318, 4), (2477, 2), (252436, 4), (257774, 4),
  (262848, 4), (268224, 4), (273742, 4), (279336, 4), (28503, 3), (290494, 4), (296292, 4),
  (302124, 4), (30798, 3), (31367, 3), (319728, 4), (325944, 4), (33217, 3), (338438, 4),
  (343696, 4), (350956, 4), (357044, 4), (36324, 3), (370668, 4), (376698, 4), (383644, 4),
  (39049, 3), (396918, 4), (404146, 4), (41082, 3), (41687, 3), (425398, 4), (432462, 4),
  (43857, 3), (446606, 4), (454168, 4), (461248, 4), (469222, 4), (476804, 4), (48447, 3),
  (493454, 4), (499594, 4), (507636, 4), (515776, 4), (52331, 3), (5319, 2), (539676, 4),
  (547564, 4), (555314, 4), (564442, 4), (573708, 4), (579774, 4), (589624, 4), (598796, 4),
  (60755, 3), (61472, 3), (622076, 4), (631024, 4), (638908, 4), (647338, 4), (657728, 4),
  (66629, 3), (67413, 3), (683266, 4), (691524, 4), (702642, 4), (711806, 4), (720566, 4),
  (729192, 4), (737598, 4), (743516, 4), (755802, 4), (764386, 4), (774916, 4), (781524, 4),
  (791892, 4), (798414, 4), (808798, 4), (818376, 4), (824698, 4), (837656, 4), (84331, 3),
  (855914, 4), (866012, 4), (877016, 4), (885582, 4), (893394, 4), (903544, 4), (914912, 4),
  (92308, 3), (933552, 4), (939746, 4), (952052, 4), (95727, 3), (971322, 4), (983944, 4),
  (987588, 4), (100242, 3), (1011914, 4), (1022538, 4), (1028776, 4), (1036292, 4), (1051932, 4),
  (1059152, 4), (1070868, 4), (1076728, 4), (1087144, 4), (1103114, 4), (1108716, 4), (111245, 3),
  (1127908, 4), (1137064, 4), (114636, 3), (1157464, 4), (1161788, 4), (1177464, 4), (1184896, 4),
  (1196166, 4), (1205082, 4), (1217798, 4), (1229028, 4), (1234426, 4), (1248854, 4), (125705, 3),
  (1264652, 4), (1283464, 4), (1283462, 4), (1300398, 4), (1310342, 4), (1310042, 4), (1324766, 4),
  (133511, 3), (1347252, 4), (135425, 3), (1365172, 4), (1380572, 4), (1386694, 4), (1393712, 4),
  (1408598, 4), (1414594, 4), (142554, 3), (1434006, 4), (1447374, 4), (1461634, 4), (1468994, 4),
  (147605, 3), (1479304, 4), (1491636, 4), (1502468, 4), (1515876, 4), (1522096, 4), (1537032, 4),
  (1547146, 4), (155807, 3), (1569228, 4), (1570372, 4), (1585852, 4)]

/-- `RAW_ESTIMATE_DATA[2]`, precision 6 (src/constants.rs:41-70). -/
def raw6 : List (ℤ × ℕ) := [
  (460, 1), (461902, 4), (47271, 3), (478358, 4), (488142, 4), (492854, 4), (50317, 3), (51354, 3),
  (518924, 4), (529436, 4), (534596, 4), (545262, 4), (556248, 4), (561574, 4), (572822, 4),
  (57837, 3), (589636, 4), (60074, 3), (607042, 4), (617976, 4), (624772, 4), (636564, 4),
  (647942, 4), (655004, 4), (66686, 3), (67291, 3), (685672, 4), (698556, 4), (704982, 4),
  (718204, 4), (724252, 4), (737744, 4), (750786, 4), (758344, 4), (770294, 4), (778098, 4),
  (790794, 4), (805732, 4), (811878, 4), (825648, 4), (832902, 4), (846784, 4), (853352, 4),
  (868946, 4), (883712, 4), (890852, 4), (90499, 3), (912686, 4), (926844, 4), (942234, 4),
  (949732, 4), (963356, 4), (972286, 4), (987262, 4), (1003284, 4), (1011048, 4), (1025962, 4),
  (1033562, 4), (1051272, 4), (1064184, 4), (1074974, 4), (1090822, 4), (109856, 3), (11148, 2),
  (1132834, 4), (1140208, 4), (115637, 3), (1165174, 4), (1180576, 4), (1197476, 4), (120427, 3),
  (1221326, 4), (1232372, 4), (1252788, 4), (1266776, 4), (1277926, 4), (1291952, 4), (1299564, 4),
  (1316454, 4), (13387, 2), (1345428, 4), (1362, 1), (1370294, 4), (1386278, 4), (1396782, 4),
  (141792, 3), (1433516, 4), (1442832, 4), (1460394, 4), (1470748, 4), (1484912, 4), (150849, 3),
  (151696, 3), (1535404, 4), (154073, 3), (1563714, 4), (1577216, 4), (1587328, 4), (1604208, 4),
  (1614184, 4), (1639424, 4), (1652772, 4), (166411, 3), (1681308, 4), (168769, 3), (1709258, 4),
  (1726828, 4), (1737502, 4), (175706, 3), (1763886, 4), (1790186, 4), (1804518, 4), (181927, 3),
  (1834172, 4), (1844114, 4), (186033, 3), (1885124, 4), (1895564, 4), (1916008, 4), (1924172, 4),
  (1938044, 4), (194997, 3), (1974548, 4), (1988948, 4), (2002346, 4), (2023086, 4), (2031548, 4),
  (2048842, 4), (2066508, 4), (2066772, 4), (2097254, 4), (2104752, 4), (2127228, 4), (2146614, 4),
  (2151676, 4), (217793, 3), (2180006, 4), (2199052, 4), (22166, 2), (2235588, 4), (2251636, 4),
  (2256882, 4), (2277126, 4), (2294502, 4), (2311978, 4), (2329756, 4), (2331654, 4), (236727, 3),
  (2381974, 4), (2377474, 4), (2411346, 4), (2423048, 4), (2441948, 4), (2453134, 4), (246879, 3),
  (2491204, 4), (249853, 3), (2526792, 4), (253857, 3), (2544486, 4), (2572362, 4), (2579534, 4),
  (2600286, 4), (2605632, 4), (262663, 3), (264723, 3), (2657566, 4), (2672566, 4), (2671624, 4),
  (27062, 2), (2728216, 4), (2732166, 4), (2752056, 4), (2762202, 4), (2783726, 4), (2803344, 4),
  (2819284, 4), (2839728, 4), (2841924, 4), (2864872, 4), (287587, 3), (289807, 3), (2911206, 4),
  (292769, 3), (2948708, 4), (296665, 3), (2971182, 4), (2994012, 4), (3006352, 4), (3021354, 4),
  (3041756, 4), (3061606, 4), (3073462, 4), (3085214, 4), (3094134, 4), (3108352, 4), (3139684, 4),
  (315837, 3), (3167796, 4), (3189858, 4)]

/-- `RAW_ESTIMATE_DATA[3]`, precision 7 (src/constants.rs:72-102). -/
def raw7 : List (ℤ × ℕ) := [
  (920, 1), (934934, 4), (949758, 4), (964574, 4), (979718, 4), (994954, 4), (1015302, 4),
  (1030756, 4), (1046374, 4), (1061782, 4), (1077888, 4), (1099522, 4), (111592, 3), (1132532, 4),
  (1149086, 4), (1165938, 4), (1189474, 4), (1206796, 4), (1224394, 4), (1242176, 4), (1259768, 4),
  (1284214, 4), (1302528, 4), (1320102, 4), (1338658, 4), (1357278, 4), (1383044, 4), (1401316, 4),
  (142093, 3), (1440032, 4), (1459092, 4), (1486306, 4), (1505294, 4), (1525756, 4), (1546508, 4),
  (156662, 3), (159552, 3), (1613724, 4), (163617, 3), (1655754, 4), (1677872, 4), (1698444, 4),
  (1727988, 4), (1748606, 4), (1772118, 4), (1793566, 4), (1814476, 4), (1845882, 4), (1866816, 4),
  (1890824, 4), (1910258, 4), (1936048, 4), (1964436, 4), (1987274, 4), (200957, 3), (203147, 3),
  (2054364, 4), (2087592, 4), (2113386, 4), (213781, 3), (2158028, 4), (218656, 3), (2216544, 4),
  (223996, 3), (2264718, 4), (2291544, 4), (2316098, 4), (2345956, 4), (2370616, 4), (2395758, 4),
  (2424878, 4), (2445244, 4), (2482146, 4), (250724, 3), (2528722, 4), (2555198, 4), (2580414, 4),
  (261941, 3), (2649048, 4), (26687, 2), (2694304, 4), (272028, 3), (2744708, 4), (27837, 2),
  (2810624, 4), (2834668, 4), (2865532, 4), (2894352, 4), (2932564, 4), (2952744, 4), (2982118, 4),
  (3007472, 4), (3041456, 4), (3072928, 4), (3097504, 4), (3125528, 4), (315979, 3), (3182102, 4),
  (3221834, 4), (3243494, 4), (327325, 3), (3306614, 4), (332903, 3), (3372544, 4), (3399042, 4),
  (343215, 3), (3452864, 4), (3480814, 4), (3526764, 4), (355301, 3), (357139, 3), (360658, 3),
  (3631732, 4), (3665902, 4), (3699538, 4), (3730828, 4), (375922, 3), (3789902, 4), (3827328, 4),
  (3864538, 4), (3881136, 4), (3912234, 4), (3940878, 4), (396708, 3), (4011556, 4), (4041852, 4),
  (4066372, 4), (4096822, 4), (4127796, 4), (4166078, 4), (4184916, 4), (422131, 3), (4245376, 4),
  (4281988, 4), (432211, 3), (4344502, 4), (4385282, 4), (440912, 3), (4440448, 4), (4477432, 4),
  (4508524, 4), (4537988, 4), (4567858, 4), (4588868, 4), (4639886, 4), (4665064, 4), (4689124, 4),
  (4726616, 4), (4754682, 4), (478582, 3), (481304, 3), (4852738, 4), (4886894, 4), (490329, 3),
  (496106, 3), (4976908, 4), (5011374, 4), (5045322, 4), (5068848, 4), (5103324, 4), (5134512, 4),
  (516179, 3), (5204412, 4), (5226066, 4), (526167, 3), (5287794, 4), (533379, 3), (536067, 3),
  (53846, 2), (5429116, 4), (545692, 3), (5479546, 4), (552493, 3), (5552722, 4), (557335, 3),
  (562449, 3), (5642014, 4), (5690738, 4), (5710974, 4), (5748564, 4), (5782996, 4), (581409, 3),
  (5839704, 4), (5858098, 4), (5896528, 4), (5945998, 4), (595958, 3), (600068, 3), (6033278, 4),
  (6082016, 4), (6099632, 4), (612864, 3), (61543, 2), (6207794, 4), (621272, 3), (6258644, 4),
  (629206, 3), (633219, 3), (6345154, 4), (6386102, 4)]

/-- `RAW_ESTIMATE_DATA[4]`, precision 8 (src/constants.rs:104-135). -/
def raw8 : List (ℤ × ℕ) := [
  (1842152, 4), (1872454, 4), (1902096, 4), (1936652, 4), (1966312, 4), (1996822, 4), (203249, 3),
  (2063296, 4), (2100038, 4), (2132074, 4), (2164612, 4), (22027, 2), (2235178, 4), (2274412, 4),
  (2308032, 4), (2341634, 4), (2381688, 4), (2416074, 4), (2456946, 4), (2492664, 4), (2528228, 4),
  (2570432, 4), (2606824, 4), (2649464, 4), (2686268, 4), (2722626, 4), (2768376, 4), (2804034, 4),
  (2848956, 4), (2888522, 4), (2927638, 4), (2973552, 4), (3013556, 4), (3057526, 4), (3099292, 4),
  (3138954, 4), (3188198, 4), (3227668, 4), (327298, 3), (3316688, 4), (3359466, 4), (3409746, 4),
  (3451672, 4), (3493474, 4), (3543028, 4), (3588912, 4), (364114, 3), (3684646, 4), (3729744, 4),
  (3784092, 4), (3826022, 4), (387843, 3), (3925684, 4), (3971652, 4), (4025426, 4), (4074152, 4),
  (4125388, 4), (4173592, 4), (4221366, 4), (427486, 3), (4323918, 4), (4375076, 4), (442509, 3),
  (4473834, 4), (4533498, 4), (4580668, 4), (4637346, 4), (4691228, 4), (4734528, 4), (4797, 1),
  (484644, 3), (4910518, 4), (4955774, 4), (5009068, 4), (506432, 3), (5121666, 4), (517434, 3),
  (5226644, 4), (5274894, 4), (5336312, 4), (5383804, 4), (544292, 3), (5505496, 4), (5560234, 4),
  (5628206, 4), (5666146, 4), (5724188, 4), (579117, 3), (5836762, 4), (5906576, 4), (5957864, 4),
  (601509, 3), (6075334, 4), (6129204, 4), (619772, 3), (6242924, 4), (6308654, 4), (6361836, 4),
  (642745, 3), (6491316, 4), (6550386, 4), (6600136, 4), (6666342, 4), (6716196, 4), (6781866, 4),
  (6844282, 4), (6893324, 4), (6954794, 4), (7025038, 4), (708129, 3), (713528, 3), (7203204, 4),
  (726463, 3), (7327928, 4), (739123, 3), (7447418, 4), (7512192, 4), (7565102, 4), (7626066, 4),
  (7690184, 4), (7752224, 4), (7814014, 4), (7877618, 4), (7941436, 4), (7986506, 4), (8056378, 4),
  (811766, 3), (8197514, 4), (8245776, 4), (8287322, 4), (8378048, 4), (8436302, 4), (8499336, 4),
  (8544798, 4), (8613388, 4), (8679894, 4), (8738196, 4), (8803136, 4), (8862308, 4), (8924588, 4),
  (8990816, 4), (9054076, 4), (9120064, 4), (9173878, 4), (923619, 3), (929998, 3), (9373482, 4),
  (9439506, 4), (947991, 3), (9551144, 4), (962203, 3), (9688222, 4), (9757324, 4), (9817826, 4),
  (9887666, 4), (9942648, 4), (10003128, 4), (10074082, 4), (10137536, 4), (10203376, 4),
  (10267156, 4), (10317478, 4), (10374292, 4), (1045393, 3), (10512278, 4), (10583434, 4),
  (10628726, 4), (1071884, 3), (1076806, 3), (10829176, 4), (10891678, 4), (10955032, 4),
  (1102525, 3), (11072264, 4), (1115315, 3), (112093, 2), (1127252, 3), (11341496, 4),
  (11390408, 4), (11475448, 4), (11533296, 4), (11581974, 4), (11665262, 4), (11743328, 4),
  (1175657, 3), (11844222, 4), (11909172, 4), (11971292, 4), (12044606, 4), (12104578, 4),
  (12188728, 4), (12253336, 4), (12266592, 4), (12365768, 4), (1241363, 3), (12494074, 4),
  (12546566, 4), (12608014, 4), (12665454, 4), (12745192, 4)]

/-- `RAW_ESTIMATE_DATA[5]`, precision 9 (src/constants.rs:137-170). -/
def raw9 : List (ℤ × ℕ) := [
  (3690, 1), (3748294, 4), (3812452, 4), (3876698, 4), (3941464, 4), (4002024, 4), (4068782, 4),
  (4136598, 4), (420462, 3), (4272826, 4), (4337102, 4), (4407416, 4), (4479366, 4), (4551046, 4),
  (462285, 3), (4690668, 4), (476306, 3), (4838448, 4), (491301, 3), (4989886, 4), (5062422, 4),
  (5138138, 4), (5217074, 4), (5297428, 4), (5378402, 4), (5451664, 4), (5533534, 4), (561594, 3),
  (5696886, 4), (5777876, 4), (58565, 2), (594228, 3), (6028036, 4), (6111666, 4), (6200818, 4),
  (6280824, 4), (6372574, 4), (646302, 3), (6551644, 4), (6640056, 4), (6723802, 4), (6817192, 4),
  (6905234, 4), (7002084, 4), (708831, 3), (718485, 3), (7281112, 4), (7374764, 4), (74676, 2),
  (7563368, 4), (7665538, 4), (7755058, 4), (7852646, 4), (7955902, 4), (8043818, 4), (8148998, 4),
  (8249532, 4), (8352062, 4), (8452798, 4), (8544728, 4), (8649582, 4), (8753292, 4), (886171, 3),
  (896781, 3), (9065716, 4), (9167048, 4), (9275322, 4), (937875, 3), (9493972, 4), (9583464, 4),
  (9697274, 4), (9802834, 4), (9921444, 4), (10034264, 4), (10130166, 4), (1024018, 3),
  (10350438, 4), (104634, 2), (10576856, 4), (10689836, 4), (10790312, 4), (1091677, 3),
  (11023188, 4), (11134846, 4), (11244424, 4), (1135739, 3), (11471488, 4), (11589202, 4),
  (1169406, 3), (11815342, 4), (11932834, 4), (12038954, 4), (12163286, 4), (12262146, 4),
  (12396684, 4), (12519946, 4), (1262123, 3), (12754338, 4), (12857378, 4), (1296076, 3),
  (13089692, 4), (13204964, 4), (13330998, 4), (13439864, 4), (13577754, 4), (13683208, 4),
  (13804838, 4), (13927388, 4), (14060758, 4), (14169098, 4), (14289728, 4), (14409228, 4),
  (14539292, 4), (1462617, 3), (147605, 2), (14902996, 4), (15006128, 4), (15137392, 4),
  (15245174, 4), (15366322, 4), (15482584, 4), (15623766, 4), (1572423, 3), (15871232, 4),
  (15965164, 4), (16105938, 4), (16225972, 4), (16331222, 4), (16477674, 4), (16585044, 4),
  (167157, 2), (16837044, 4), (16954142, 4), (17087102, 4), (17206094, 4), (17326522, 4),
  (1747841, 3), (17564072, 4), (17699786, 4), (17823276, 4), (17975216, 4), (18083186, 4),
  (18190694, 4), (1834354, 3), (1844575, 3), (18562808, 4), (18711288, 4), (18807852, 4),
  (18939622, 4), (19063418, 4), (19206548, 4), (19329302, 4), (19458584, 4), (1955473, 3),
  (19688248, 4), (19806446, 4), (19959598, 4), (2008349, 3), (20198556, 4), (20330334, 4),
  (20440206, 4), (20593956, 4), (20699174, 4), (20826084, 4), (20937036, 4), (21066108, 4),
  (21189124, 4), (2132301, 3), (21447628, 4), (21598422, 4), (21710212, 4), (2183101, 3),
  (21935112, 4), (2208052, 3), (22213194, 4), (22333282, 4), (2247295, 3), (22577222, 4),
  (2273342, 3), (22865638, 4), (22996786, 4), (23108114, 4), (23223312, 4), (2335516, 3),
  (2349874, 3), (23635968, 4), (2373865, 3), (23871918, 4), (24018328, 4), (24148496, 4),
  (2424544, 3), (24367592, 4), (24471682, 4), (24641958, 4), (24743438, 4), (24890006, 4),
  (24974526, 4), (25136586, 4), (252719, 2), (25407028, 4), (2553768, 3)]

/-- `RAW_ESTIMATE_DATA[6]`, precision 10 (src/constants.rs:172-206). -/
def raw10 : List (ℤ × ℕ) := [
  (7381256, 4), (7504234, 4), (7631064, 4), (7754732, 4), (7884636, 4), (8010644, 4), (814488, 3),
  (8279654, 4), (8410832, 4), (8547864, 4), (8681992, 4), (8822176, 4), (8965228, 4), (9101716, 4),
  (9247752, 4), (938899, 3), (9536126, 4), (9686492, 4), (9829474, 4), (9985214, 4), (10131064, 4),
  (10286364, 4), (10442468, 4), (10594588, 4), (10753832, 4), (10910584, 4), (11068606, 4),
  (11233868, 4), (11395062, 4), (11561862, 4), (1172463, 3), (1189339, 3), (12061936, 4),
  (12231292, 4), (12401854, 4), (12572908, 4), (12753324, 4), (12928518, 4), (13105204, 4),
  (13284854, 4), (13459318, 4), (1364552, 3), (13814658, 4), (14004256, 4), (1419849, 3),
  (1438152, 3), (14568956, 4), (14748792, 4), (1494118, 3), (151362, 2), (15325132, 4),
  (15519322, 4), (15707726, 4), (15906086, 4), (16105332, 4), (16305918, 4), (16504294, 4),
  (16697662, 4), (16904106, 4), (17107338, 4), (17309012, 4), (17504486, 4), (17701556, 4),
  (17916338, 4), (18127312, 4), (18336264, 4), (18539526, 4), (18748742, 4), (18968326, 4),
  (19181966, 4), (19395594, 4), (196107, 2), (1983037, 3), (20031804, 4), (2026071, 3),
  (20474884, 4), (20700848, 4), (20912944, 4), (2114333, 3), (21359626, 4), (21582902, 4),
  (21810814, 4), (22020334, 4), (22244832, 4), (224639, 2), (22697202, 4), (22921714, 4),
  (23142358, 4), (23389346, 4), (2360891, 3), (23840264, 4), (24083834, 4), (24301544, 4),
  (24548684, 4), (24769896, 4), (25014368, 4), (25228702, 4), (25480408, 4), (25706738, 4),
  (25935208, 4), (26170158, 4), (26402302, 4), (26640962, 4), (26874986, 4), (27142588, 4),
  (27353914, 4), (27596244, 4), (27818378, 4), (28080072, 4), (28306516, 4), (28562454, 4),
  (28772136, 4), (29034546, 4), (2926785, 3), (29512294, 4), (2976468, 3), (3000867, 3),
  (30236508, 4), (304991, 2), (30735984, 4), (3098162, 3), (31215564, 4), (31462328, 4),
  (31709484, 4), (31955902, 4), (32213346, 4), (32427032, 4), (32716112, 4), (32965546, 4),
  (33177376, 4), (3345072, 3), (33699518, 4), (3394326, 3), (34181818, 4), (34446926, 4),
  (3469086, 3), (34942754, 4), (35178698, 4), (3544248, 3), (35653768, 4), (35887234, 4),
  (3616979, 3), (36437504, 4), (36686812, 4), (369572, 2), (37197392, 4), (37426224, 4),
  (37704456, 4), (37956602, 4), (38199058, 4), (3844002, 3), (3869517, 3), (38956824, 4),
  (39208622, 4), (39471364, 4), (3973985, 3), (39954772, 4), (402162, 2), (4046628, 3),
  (407465, 2), (40962256, 4), (4121831, 3), (41466406, 4), (4173276, 3), (41950744, 4),
  (42239696, 4), (42513708, 4), (42729966, 4), (43008046, 4), (4326302, 3), (43531248, 4),
  (4374312, 3), (44030322, 4), (4426819, 3), (44500598, 4), (44785206, 4), (45048116, 4),
  (45288928, 4), (45539584, 4), (45788712, 4), (46038384, 4), (46323872, 4), (46555128, 4),
  (4675821, 3), (47046222, 4), (47319862, 4), (47554174, 4), (47812628, 4), (4804332, 3),
  (48323048, 4), (48628752, 4), (48834148, 4), (49069544, 4), (49353516, 4), (49543532, 4),
  (49840248, 4), (5011217, 3), (50353258, 4), (50573672, 4), (50841828, 4)]

/-- `RAW_ESTIMATE_DATA[7]`, precision 11 (src/constants.rs:208-243). -/
def raw11 : List (ℤ × ℕ) := [
  (14770, 1), (15016014, 4), (15265802, 4), (15517942, 4), (15773042, 4), (16032062, 4),
  (16298402, 4), (16562292, 4), (16829462, 4), (17099926, 4), (17373026, 4), (17654252, 4),
  (17930578, 4), (18216092, 4), (1849626, 3), (18785568, 4), (1908527, 3), (19375154, 4),
  (19671874, 4), (19973878, 4), (202737, 2), (20581972, 4), (20895728, 4), (21201012, 4),
  (21519668, 4), (2183292, 3), (22160772, 4), (22478578, 4), (22806562, 4), (2313041, 3),
  (2345714, 3), (23803112, 4), (24141806, 4), (24479854, 4), (2481656, 3), (2516346, 3),
  (25515154, 4), (25868378, 4), (26217448, 4), (26566722, 4), (26935722, 4), (27291462, 4),
  (27654124, 4), (28028728, 4), (2838898, 3), (2876408, 3), (29134926, 4), (29514938, 4),
  (29896776, 4), (3026282, 3), (30657704, 4), (31041012, 4), (31437388, 4), (31816876, 4),
  (32211872, 4), (32615048, 4), (33000214, 4), (3339806, 3), (3381409, 3), (34214144, 4),
  (34614294, 4), (35022286, 4), (3544651, 3), (35866156, 4), (3627337, 3), (3670083, 3),
  (37111538, 4), (37535094, 4), (379701, 2), (38386686, 4), (38821678, 4), (39228116, 4),
  (39679978, 4), (40099204, 4), (40543286, 4), (40975706, 4), (41406014, 4), (4185544, 3),
  (42295976, 4), (4274583, 3), (43169438, 4), (4361672, 3), (44062786, 4), (44518628, 4),
  (44961834, 4), (4543505, 3), (45891816, 4), (46325188, 4), (46782294, 4), (47248908, 4),
  (47690194, 4), (4817052, 3), (48614588, 4), (49101596, 4), (49564344, 4), (50025238, 4),
  (504813, 2), (50936374, 4), (51428162, 4), (51877894, 4), (52373984, 4), (52856078, 4),
  (53310858, 4), (53791036, 4), (54286258, 4), (54746018, 4), (55227618, 4), (55715822, 4),
  (561859, 2), (56679992, 4), (571488, 2), (5763454, 3), (58086982, 4), (58603644, 4),
  (59102914, 4), (5953571, 3), (60059232, 4), (60551914, 4), (61045882, 4), (61545702, 4),
  (61997036, 4), (62511764, 4), (62987596, 4), (63500302, 4), (6398061, 3), (64484694, 4),
  (6495933, 3), (65480474, 4), (65977166, 4), (66469416, 4), (66959208, 4), (67426328, 4),
  (67935276, 4), (68421934, 4), (68942372, 4), (69453864, 4), (69969228, 4), (70442372, 4),
  (70941374, 4), (71422272, 4), (71922942, 4), (72388338, 4), (72889006, 4), (73440908, 4),
  (73948544, 4), (74435176, 4), (74904148, 4), (75429314, 4), (75956738, 4), (76419878, 4),
  (76943688, 4), (77430448, 4), (7797522, 3), (784553, 2), (7899594, 3), (79503132, 4),
  (7996455, 3), (80509442, 4), (80929114, 4), (81531374, 4), (81974472, 4), (82528278, 4),
  (83018728, 4), (83486776, 4), (84014698, 4), (8453551, 3), (85046598, 4), (85538944, 4),
  (86041276, 4), (86576514, 4), (87103062, 4), (8758908, 3), (88078706, 4), (88621702, 4),
  (89104668, 4), (896077, 2), (90072766, 4), (9063164, 3), (91210534, 4), (91641354, 4),
  (92181594, 4), (9267767, 3), (93190594, 4), (9372155, 3), (94197126, 4), (94743722, 4),
  (95201338, 4), (9572368, 3), (96227702, 4), (96758448, 4), (97265396, 4), (97787378, 4),
  (98276554, 4), (98781922, 4), (99287782, 4), (99783984, 4), (10026578, 3), (100765626, 4),
  (101371618, 4), (101775244, 4), (102299176, 4)]

/-- `RAW_ESTIMATE_DATA[8]`, precision 12 (src/constants.rs:245-280). -/
def raw12 : List (ℤ × ℕ) := [
  (29540, 1), (30034782, 4), (30533568, 4), (31043666, 4), (3155324, 3), (32069598, 4),
  (3259648, 3), (3312539, 3), (33661474, 4), (34202576, 4), (34748376, 4), (35306076, 4),
  (3586451, 3), (364338, 2), (37004104, 4), (37575638, 4), (38159676, 4), (3875193, 3),
  (3934838, 3), (39948548, 4), (4055018, 3), (41171742, 4), (41784482, 4), (42411294, 4),
  (43044776, 4), (43674044, 4), (44318724, 4), (44963732, 4), (45614304, 4), (46275326, 4),
  (4693949, 3), (47615532, 4), (48287256, 4), (48976182, 4), (49655186, 4), (50344528, 4),
  (5104865, 3), (51747164, 4), (52446828, 4), (53166708, 4), (53878312, 4), (54599036, 4),
  (5532476, 3), (56048652, 4), (56796718, 4), (5753757, 3), (58302072, 4), (59052828, 4),
  (59800434, 4), (60566264, 4), (61343192, 4), (62115746, 4), (62900816, 4), (63671176, 4),
  (64479796, 4), (65265576, 4), (66061858, 4), (66869144, 4), (67661142, 4), (68470818, 4),
  (69279664, 4), (70109096, 4), (70910816, 4), (71753962, 4), (72603454, 4), (7344018, 3),
  (74264214, 4), (75113106, 4), (75960686, 4), (76798094, 4), (7765818, 3), (78524248, 4),
  (7936834, 3), (8022363, 3), (81095066, 4), (82004554, 4), (82885832, 4), (8373366, 3),
  (84634808, 4), (85497682, 4), (86420522, 4), (87283288, 4), (88209528, 4), (8907727, 3),
  (90010794, 4), (90912522, 4), (9179988, 3), (9269852, 3), (93626394, 4), (9453642, 3),
  (95469024, 4), (96406616, 4), (97326622, 4), (98243254, 4), (99177484, 4), (100079392, 4),
  (101067508, 4), (101962152, 4), (102898114, 4), (103835494, 4), (104823064, 4), (105768734, 4),
  (106687872, 4), (107647156, 4), (108620196, 4), (10952793, 3), (110499748, 4), (111460702, 4),
  (112414492, 4), (113392772, 4), (114342336, 4), (11530741, 3), (116276136, 4), (11726311, 3),
  (118215964, 4), (11918837, 3), (120153724, 4), (121130162, 4), (122130424, 4), (123069804, 4),
  (124084518, 4), (125048968, 4), (12604586, 3), (127009332, 4), (12798705, 3), (128985142, 4),
  (129970488, 4), (13094788, 3), (13198475, 3), (132927764, 4), (133929698, 4), (134868574, 4),
  (135901616, 4), (136865838, 4), (137836264, 4), (138872638, 4), (139920978, 4), (140810844, 4),
  (141899956, 4), (142800912, 4), (143824956, 4), (144864384, 4), (145881082, 4), (146862392, 4),
  (14782276, 3), (148880284, 4), (149851864, 4), (150888596, 4), (151870998, 4), (15285027, 3),
  (153836694, 4), (154958266, 4), (155913736, 4), (156942008, 4), (157903246, 4), (158984116, 4),
  (159974522, 4), (160955014, 4), (161988514, 4), (162917492, 4), (164026424, 4), (164991266, 4),
  (166062436, 4), (166977186, 4), (167963946, 4), (169023376, 4), (170057672, 4), (17100814, 3),
  (172068282, 4), (173058262, 4), (174160744, 4), (175084092, 4), (176170178, 4), (177154554, 4),
  (17816758, 3), (179201748, 4), (180129236, 4), (181197984, 4), (182232248, 4), (183242482, 4),
  (184266276, 4), (185250932, 4), (186298976, 4), (187332588, 4), (188310466, 4), (189401366, 4),
  (190322696, 4), (19131729, 3), (192434864, 4), (193496932, 4), (19442866, 3), (195479448, 4),
  (196532798, 4), (197544034, 4), (198540692, 4), (199651224, 4), (200651774, 4), (201582212, 4),
  (20253353, 3), (203663264, 4), (2046322, 2)]

/-- `RAW_ESTIMATE_DATA[9]`, precision 13 (src/constants.rs:282-317). -/
def raw13 : List (ℤ × ℕ) := [
  (59085052, 4), (60072672, 4), (6107347, 3), (62085794, 4), (63112622, 4), (64145514, 4),
  (65193376, 4), (66256952, 4), (67325988, 4), (68413552, 4), (69505972, 4), (70613082, 4),
  (71735646, 4), (7287109, 3), (74018216, 4), (75164344, 4), (76333802, 4), (77512962, 4),
  (78703784, 4), (7990292, 3), (811079, 2), (82334574, 4), (83566036, 4), (84822712, 4),
  (86077708, 4), (8735099, 3), (88631858, 4), (89934746, 4), (91238496, 4), (92556794, 4),
  (93885448, 4), (95227516, 4), (96573106, 4), (97926094, 4), (99305642, 4), (10068794, 3),
  (102067256, 4), (1034781, 2), (104903196, 4), (106320778, 4), (107759916, 4), (109204662, 4),
  (11066124, 3), (11213073, 3), (113580362, 4), (115081006, 4), (116591716, 4), (118087514, 4),
  (119594884, 4), (121121314, 4), (12265037, 3), (124203756, 4), (12578933, 3), (12734311, 3),
  (128900006, 4), (130472144, 4), (132073096, 4), (133685144, 4), (13528024, 3), (13689847, 3),
  (138527528, 4), (140183168, 4), (141805372, 4), (143469668, 4), (145135074, 4), (14677867, 3),
  (148462186, 4), (150174186, 4), (151849716, 4), (15356339, 3), (155292972, 4), (156973578, 4),
  (158718686, 4), (16042187, 3), (162164094, 4), (163894188, 4), (165659126, 4), (167423272, 4),
  (169190042, 4), (170947592, 4), (17273965, 3), (174518342, 4), (176344254, 4), (178105984, 4),
  (179889242, 4), (18171051, 3), (183547938, 4), (18539466, 3), (187210408, 4), (189049972, 4),
  (19081867, 3), (192719118, 4), (194518694, 4), (196379816, 4), (198212922, 4), (200131292, 4),
  (201993858, 4), (203878726, 4), (205729514, 4), (207707764, 4), (209551714, 4), (21144751, 3),
  (213299952, 4), (21520709, 3), (217127016, 4), (219063868, 4), (220962626, 4), (222860524, 4),
  (22475051, 3), (226655098, 4), (228628492, 4), (230555294, 4), (232496138, 4), (23437848, 3),
  (23636273, 3), (23826093, 3), (240203296, 4), (242133896, 4), (244117392, 4), (246029614, 4),
  (248057952, 4), (249981552, 4), (251939588, 4), (253890166, 4), (255858392, 4), (257806976, 4),
  (259812728, 4), (26175977, 3), (263765252, 4), (265701964, 4), (26773387, 3), (269629812, 4),
  (271630586, 4), (27368164, 3), (275650534, 4), (277587428, 4), (279611276, 4), (281632324, 4),
  (283623816, 4), (285657668, 4), (28758644, 3), (289569768, 4), (291634722, 4), (293547026, 4),
  (295611186, 4), (297679948, 4), (299599986, 4), (301640492, 4), (303669818, 4), (305625338, 4),
  (307629928, 4), (309761592, 4), (31166274, 3), (31376722, 3), (315703734, 4), (31770809, 3),
  (319748934, 4), (321795286, 4), (323875442, 4), (325823504, 4), (32794076, 3), (329899528, 4),
  (33191842, 3), (333924684, 4), (33595659, 3), (338018672, 4), (340003414, 4), (342000922, 4),
  (344026792, 4), (346100638, 4), (348040084, 4), (3501113, 2), (35218669, 3), (354186634, 4),
  (356190792, 4), (358306534, 4), (360284966, 4), (362297902, 4), (364386422, 4), (366307764, 4),
  (368333102, 4), (370486728, 4), (372473916, 4), (374535904, 4), (376693614, 4), (378545526, 4),
  (38059305, 3), (382680936, 4), (384702516, 4), (386747064, 4), (38876167, 3), (390683794, 4),
  (392819144, 4), (394928566, 4), (396848628, 4), (398984108, 4), (400931836, 4), (402976858, 4),
  (404897086, 4), (407172424, 4)]

/-- `RAW_ESTIMATE_DATA[10]`, precision 14 (src/constants.rs:319-354). -/
def raw14 : List (ℤ × ℕ) := [
  (11817475, 3), (120150046, 4), (122153792, 4), (124177504, 4), (126231814, 4), (128300086, 4),
  (130400072, 4), (13252503, 3), (13466178, 3), (136832738, 4), (139020344, 4), (141239798, 4),
  (14347394, 3), (145737784, 4), (148026894, 4), (150336824, 4), (152669134, 4), (155028624, 4),
  (157414944, 4), (159807956, 4), (162238916, 4), (164686316, 4), (16715733, 3), (169655726, 4),
  (17217204, 3), (17470666, 3), (177278516, 4), (179867886, 4), (182476902, 4), (185109632, 4),
  (18775304, 3), (190447486, 4), (193144408, 4), (19587202, 3), (198622576, 4), (20135924, 3),
  (204170324, 4), (206979788, 4), (209796112, 4), (212650274, 4), (21550723, 3), (218416906, 4),
  (22132162, 3), (224281406, 4), (22722127, 3), (230205606, 4), (233197394, 4), (236204014, 4),
  (239252728, 4), (242269224, 4), (24535581, 3), (24845505, 3), (251559618, 4), (254703828, 4),
  (257859702, 4), (261037764, 4), (264204132, 4), (267420186, 4), (270628852, 4), (27388415, 3),
  (277146024, 4), (28042296, 3), (283654494, 4), (287011526, 4), (290318008, 4), (293642156, 4),
  (29704497, 3), (300371458, 4), (30380111, 3), (307238168, 4), (310595114, 4), (314049498, 4),
  (317516752, 4), (320952686, 4), (324447792, 4), (32794767, 3), (33145204, 3), (334984226, 4),
  (338476502, 4), (34209006, 3), (34560849, 3), (349194838, 4), (352749778, 4), (356351322, 4),
  (359963266, 4), (363591394, 4), (367228266, 4), (370828516, 4), (374477354, 4), (378159606, 4),
  (381910692, 4), (385594106, 4), (389248112, 4), (392946726, 4), (39663973, 3), (40042261, 3),
  (404162036, 4), (407792036, 4), (411616436, 4), (415409014, 4), (419211998, 4), (422947698, 4),
  (426785264, 4), (430613464, 4), (43432375, 3), (43818432, 3), (441986598, 4), (445830138, 4),
  (449704794, 4), (45353924, 3), (45729858, 3), (461182224, 4), (465115724, 4), (469007386, 4),
  (472806964, 4), (476681472, 4), (480556796, 4), (484469436, 4), (488387146, 4), (492177296, 4),
  (496137796, 4), (500107508, 4), (504100208, 4), (507937886, 4), (511902456, 4), (515831882, 4),
  (519710796, 4), (523765338, 4), (52763319, 3), (531655534, 4), (535565594, 4), (539482702, 4),
  (54346352, 3), (547487914, 4), (55138577, 3), (555434824, 4), (559411748, 4), (563337746, 4),
  (567451552, 4), (571427944, 4), (575452236, 4), (579359956, 4), (583485268, 4), (587375474, 4),
  (591585962, 4), (595426896, 4), (599588004, 4), (603493788, 4), (607550212, 4), (611476144, 4),
  (61548194, 3), (619460696, 4), (623486042, 4), (62763603, 3), (63162781, 3), (63560635, 3),
  (639743482, 4), (643664908, 4), (647715876, 4), (651767346, 4), (655973916, 4), (65995915, 3),
  (663940384, 4), (668229396, 4), (672036336, 4), (676122032, 4), (680190078, 4), (684200388, 4),
  (6882122, 2), (692358388, 4), (696400724, 4), (70055155, 3), (70466357, 3), (708634266, 4),
  (712762482, 4), (716770306, 4), (720802006, 4), (724930214, 4), (728935952, 4), (733145856, 4),
  (737149852, 4), (741253022, 4), (745212122, 4), (749336814, 4), (753415904, 4), (757430244, 4),
  (761660278, 4), (765721322, 4), (769731028, 4), (773816284, 4), (778006092, 4), (78189328, 3),
  (786070962, 4), (790122508, 4), (794078358, 4), (79825725, 3), (80238701, 3), (80646891, 3),
  (810356436, 4), (814600448, 4), (818763884, 4)]

/-- `RAW_ESTIMATE_DATA[11]`, precision 15 (src/constants.rs:356-558). -/
def raw15 : List (ℤ × ℕ) := [
  (236350036, 4), (240308034, 4), (244314744, 4), (248371524, 4), (252467928, 4), (25661326, 3),
  (260813532, 4), (265052806, 4), (269339892, 4), (273677098, 4), (27805318, 3), (28248799, 3),
  (286964382, 4), (291488244, 4), (296055138, 4), (300668668, 4), (305342344, 4), (3100632, 2),
  (31480778, 3), (319622418, 4), (324473324, 4), (329380232, 4), (33432731, 3), (33930728, 3),
  (344339896, 4), (349441402, 4), (354575588, 4), (359745958, 4), (364973296, 4), (370219096, 4),
  (37554326, 3), (380880826, 4), (386288816, 4), (391713192, 4), (397232326, 4), (402745554, 4),
  (408323142, 4), (41390613, 3), (419595908, 4), (425325466, 4), (431020344, 4), (436835072, 4),
  (44266694, 3), (448512822, 4), (454407862, 4), (460380586, 4), (466403164, 4), (47241064, 3),
  (47846155, 3), (484547396, 4), (490769168, 4), (49692542, 3), (503174778, 4), (5093965, 2),
  (515725596, 4), (522102906, 4), (528437396, 4), (534813996, 4), (54127236, 3), (54770406, 3),
  (554226598, 4), (560787958, 4), (567367174, 4), (573976784, 4), (580645784, 4), (58730308, 3),
  (594049784, 4), (600770864, 4), (607519158, 4), (614441386, 4), (62115817, 3), (628087742, 4),
  (635014774, 4), (641875454, 4), (648836622, 4), (655827468, 4), (662745318, 4), (669769276, 4),
  (676887764, 4), (68402138, 3), (691096274, 4), (698229706, 4), (705436108, 4), (712655202, 4),
  (719833848, 4), (727084656, 4), (73433384, 3), (741584664, 4), (748964868, 4), (756209564, 4),
  (763621434, 4), (770983204, 4), (778357662, 4), (785826114, 4), (793239902, 4), (800678658, 4),
  (808149246, 4), (815670136, 4), (823108536, 4), (830619952, 4), (838214096, 4), (845808608, 4),
  (85335547, 3), (860925802, 4), (868516506, 4), (87612311, 3), (883812016, 4), (891463296, 4),
  (899078974, 4), (90676846, 3), (914514152, 4), (922245518, 4), (929958686, 4), (937635066, 4),
  (945512796, 4), (953151944, 4), (960961806, 4), (968810918, 4), (97665679, 3), (9844268, 2),
  (992293002, 4), (1000110994, 4), (1007906386, 4), (1015801564, 4), (1023777484, 4),
  (1031521392, 4), (1039442712, 4), (104730216, 3), (1055286336, 4), (1063249398, 4),
  (1071176706, 4), (1078903988, 4), (1086952266, 4), (109485238, 3), (1102947876, 4),
  (1110750958, 4), (1118780496, 4), (1126952864, 4), (1134645486, 4), (1142700474, 4),
  (115068608, 3), (1158843626, 4), (1166732588, 4), (1174833716, 4), (118275097, 3),
  (1190854092, 4), (1198792808, 4), (1206875868, 4), (1214999944, 4), (122284916, 3),
  (1230959254, 4), (1239125038, 4), (1247090454, 4), (1255037182, 4), (126323259, 3),
  (1271389412, 4), (1279438294, 4), (128755646, 3), (1295565354, 4), (1303753298, 4),
  (1311614734, 4), (1319711962, 4), (1327875458, 4), (1335881056, 4), (134431351, 3),
  (1352202906, 4), (136023398, 3), (1368466558, 4), (1376670004, 4), (138463663, 3),
  (1392837154, 4), (1400746146, 4), (1409013072, 4), (1417218548, 4), (1425432322, 4),
  (1433561096, 4), (1441737412, 4), (1449730948, 4), (1457943162, 4), (1466095714, 4),
  (147420003, 3), (1482379784, 4), (1490505696, 4), (149854761, 3), (1506631966, 4),
  (1514940754, 4), (1523131416, 4), (1531126902, 4), (1539357206, 4), (1547469262, 4),
  (155559547, 3), (1564019746, 4), (1572287036, 4), (1580087254, 4), (15882075, 2),
  (1596469184, 4), (1604704458, 4), (1612795348, 4), (1620933114, 4), (162918542, 3),
  (1637292842, 4)]

/-- `RAW_ESTIMATE_DATA[12]`, precision 16 (src/constants.rs:560-761). -/
def raw16 : List (ℤ × ℕ) := [
  (472710, 1), (480623584, 4), (488627074, 4), (49673152, 3), (504928416, 4), (513229514, 4),
  (5216103, 2), (53009407, 3), (538676348, 4), (54734206, 3), (556105144, 4), (564962096, 4),
  (57390795, 3), (58297268, 3), (592106448, 4), (60134665, 3), (610680248, 4), (620104472, 4),
  (629625204, 4), (639235742, 4), (648950194, 4), (658764182, 4), (668626136, 4), (678626968, 4),
  (688688908, 4), (698828544, 4), (70911271, 3), (719440924, 4), (729900326, 4), (74040692, 3),
  (751006336, 4), (761747826, 4), (772525998, 4), (783402974, 4), (794382572, 4), (805454976, 4),
  (816572796, 4), (827846336, 4), (83915515, 3), (850597362, 4), (862059368, 4), (873644424, 4),
  (885303358, 4), (897073744, 4), (908859638, 4), (92080197, 3), (932755738, 4), (94479391, 3),
  (95695918, 3), (969192236, 4), (981484602, 4), (993823474, 4), (1006256974, 4), (1018780284, 4),
  (1031416278, 4), (1044094588, 4), (1056862882, 4), (1069675402, 4), (1082616032, 4),
  (1095481578, 4), (1108520728, 4), (112162231, 3), (1134790072, 4), (1148062626, 4),
  (1161379072, 4), (1174695048, 4), (1188135186, 4), (1201654876, 4), (1215162556, 4),
  (122875766, 3), (1242505444, 4), (1256212222, 4), (1270032352, 4), (128387848, 3),
  (1297752644, 4), (1311817776, 4), (1325773086, 4), (1339799458, 4), (1353941132, 4),
  (1368009078, 4), (138233217, 3), (1396685308, 4), (141085212, 3), (1425352122, 4),
  (1439690684, 4), (1454202872, 4), (1468781542, 4), (1483327572, 4), (1498003202, 4),
  (15126966, 2), (1527436104, 4), (1542130948, 4), (155690288, 3), (1571694246, 4),
  (1586721756, 4), (160160059, 3), (1616506854, 4), (1631457772, 4), (1646456726, 4),
  (1661591952, 4), (1676821578, 4), (1691773328, 4), (1707000118, 4), (1722288964, 4),
  (1737326664, 4), (1752655556, 4), (176787799, 3), (178317111, 3), (1798566914, 4),
  (181400865, 3), (1829434612, 4), (184486742, 3), (1860334698, 4), (1875837886, 4),
  (1891481868, 4), (1906884526, 4), (1922501926, 4), (1938109042, 4), (1953542972, 4),
  (1969387682, 4), (1984935898, 4), (2000792824, 4), (201618912, 3), (2032055492, 4),
  (2047655798, 4), (2063561124, 4), (2079293064, 4), (2094987196, 4), (211086229, 3),
  (2126751324, 4), (2142567892, 4), (2158262392, 4), (2174128474, 4), (2189956724, 4),
  (2206186038, 4), (2222071166, 4), (2237810364, 4), (2253874332, 4), (2270057928, 4),
  (2285904336, 4), (2302178738, 4), (2318051054, 4), (2334089, 1), (2349953432, 4),
  (2366014956, 4), (2381907904, 4), (2398172548, 4), (2414112832, 4), (2430024066, 4),
  (2446401884, 4), (2462553128, 4), (2478493508, 4), (2494799734, 4), (2511068822, 4),
  (252705027, 3), (2543329242, 4), (255935129, 3), (2575269014, 4), (259154772, 3), (260777625, 3),
  (262390253, 3), (2640044906, 4), (26564359, 2), (2672554076, 4), (268873426, 3), (2704707252, 4),
  (2721064804, 4), (2737224456, 4), (275337794, 3), (2769457038, 4), (2785929154, 4),
  (2802043726, 4), (2818411606, 4), (283489171, 3), (2851301716, 4), (2867353362, 4),
  (2883647164, 4), (2899611814, 4), (2915955524, 4), (293285683, 3), (2948996668, 4),
  (2964993434, 4), (2981280462, 4), (2997618946, 4), (3013942424, 4), (3029976748, 4),
  (3046151478, 4), (3062697724, 4), (307886114, 3), (3095431028, 4), (3111532862, 4),
  (3127828546, 4), (3144212008, 4), (3160332438, 4), (3176929636, 4), (3193052648, 4),
  (3209487406, 4), (3225663364, 4), (3242284224, 4), (3258471542, 4)]

/-- `RAW_ESTIMATE_DATA[13]`, precision 17 (src/constants.rs:763-965). -/
def raw17 : List (ℤ × ℕ) := [
  (945420, 1), (96125811, 3), (97728019, 3), (99348558, 3), (1009879705, 4), (1026467565, 4),
  (1043245125, 4), (1060217435, 4), (1077367865, 4), (109469272, 3), (1112239465, 4),
  (112995219, 3), (114787432, 3), (116593152, 3), (11842271, 2), (1202672345, 4), (1221346765, 4),
  (124020937, 3), (1259272705, 4), (127851255, 3), (1297889485, 4), (131751016, 3),
  (1337268225, 4), (135722592, 3), (137736789, 3), (139770568, 3), (141821518, 3), (143891343, 3),
  (1459821415, 4), (148095387, 3), (150207526, 3), (152355649, 3), (1545156415, 4), (15669605, 2),
  (1588877575, 4), (161098159, 3), (163329852, 3), (165569053, 3), (1678374005, 4),
  (1701216165, 4), (1724204595, 4), (1747326265, 4), (17706277, 2), (179412502, 3), (181774035, 3),
  (184151939, 3), (1865516895, 4), (188965691, 3), (1914028095, 4), (193857949, 3),
  (1963050775, 4), (1987746715, 4), (2012712585, 4), (20376478, 2), (2062993695, 4),
  (2088181365, 4), (211373115, 3), (2139467465, 4), (216532076, 3), (219105541, 3),
  (2217145375, 4), (2243375135, 4), (2269775125, 4), (2296130655, 4), (2322702685, 4),
  (2349522065, 4), (2376453555, 4), (2403311925, 4), (243034517, 3), (2457560725, 4),
  (2485176865, 4), (251232737, 3), (2540113955, 4), (256785995, 3), (25955644, 2), (262368335, 3),
  (265156911, 3), (267965266, 3), (270785583, 3), (2736160495, 4), (2764874835, 4), (279346639, 3),
  (282202509, 3), (2850743885, 4), (2879422855, 4), (290856018, 3), (2937740345, 4),
  (2966785145, 4), (2996036355, 4), (3025526575, 4), (3054929785, 4), (3084668605, 4),
  (311392581, 3), (314347538, 3), (3173194295, 4), (3202859785, 4), (3233017325, 4),
  (3262983235, 4), (3293013105, 4), (332301987, 3), (335309791, 3), (338370762, 3), (341382923, 3),
  (3444311265, 4), (3474641545, 4), (35050728, 2), (3536192345, 4), (3566312005, 4),
  (359685203, 3), (3627767845, 4), (365886488, 3), (3689582255, 4), (3720606825, 4),
  (3751654335, 4), (378237935, 3), (381328311, 3), (3844305225, 4), (387576425, 3), (390683242, 3),
  (393839648, 3), (3969778425, 4), (4001019805, 4), (403271296, 3), (4064098425, 4),
  (4095295485, 4), (4126787, 1), (415847423, 3), (4190208035, 4), (422157081, 3), (425337749, 3),
  (4284796165, 4), (431700902, 3), (4348931915, 4), (438049582, 3), (4412105415, 4),
  (4443792545, 4), (447577356, 3), (450741931, 3), (453959548, 3), (4571370935, 4), (460329846, 3),
  (4635374815, 4), (4667323345, 4), (4699605615, 4), (473164681, 3), (4763476345, 4),
  (479496173, 3), (4828131645, 4), (4860256995, 4), (4892494885, 4), (4924601945, 4),
  (4956758805, 4), (4989080075, 4), (502131802, 3), (5053743855, 4), (5085509915, 4),
  (5118067305, 4), (515026776, 3), (5182170005, 4), (5215239855, 4), (5247059855, 4),
  (527950997, 3), (5312100265, 4), (534472497, 3), (5377507315, 4), (540926922, 3), (544207094, 3),
  (5474294345, 4), (5506663745, 4), (5539753475, 4), (5571507185, 4), (5603996165, 4),
  (563662697, 3), (5669167395, 4), (5701461215, 4), (573447425, 3), (5766896245, 4),
  (5798745745, 4), (583202337, 3), (5865030255, 4), (589715635, 3), (592910161, 3),
  (5962143885, 4), (599488035, 3), (60274092, 2), (6059830685, 4), (60924867, 2), (6124913605, 4),
  (615787912, 3), (6191075245, 4), (6223079555, 4), (625577333, 3), (6288404385, 4),
  (6320852155, 4), (6353176135, 4), (6386917195, 4), (641887467, 3), (6451399405, 4),
  (648441546, 3), (651666252, 3), (654941845, 3)]

/-- `RAW_ESTIMATE_DATA[14]`, precision 18 (src/constants.rs:967-1168). -/
def raw18 : List (ℤ × ℕ) := [
  (1890840, 1), (192250913, 3), (195456774, 3), (198696946, 3), (201977762, 3), (205294444, 3),
  (208651754, 3), (212042099, 3), (215472269, 3), (21894191, 2), (222443912, 3), (225996845, 3),
  (229568199, 3), (233193568, 3), (236844457, 3), (240543233, 3), (244279475, 3), (24804427, 2),
  (251854588, 3), (2556932, 1), (259583619, 3), (263494621, 3), (267445385, 3), (271454061, 3),
  (275468769, 3), (279549456, 3), (283646446, 3), (287788198, 3), (291966099, 3), (296181164, 3),
  (300431469, 3), (304718618, 3), (309024004, 3), (313393508, 3), (317760803, 3), (322209731, 3),
  (326675061, 3), (331160627, 3), (33565447, 2), (340241442, 3), (344841833, 3), (349467132, 3),
  (354130629, 3), (358819432, 3), (363574626, 3), (368296587, 3), (373118482, 3), (37791493, 2),
  (382782301, 3), (387680669, 3), (392601981, 3), (397544323, 3), (402529115, 3), (407546018, 3),
  (412593658, 3), (417638657, 3), (422762865, 3), (427886169, 3), (433017167, 3), (438213273, 3),
  (443441254, 3), (448692421, 3), (453937533, 3), (459239049, 3), (464529569, 3), (469910083, 3),
  (47527403, 2), (480684473, 3), (48607026, 2), (491515237, 3), (496995651, 3), (502476617, 3),
  (507973609, 3), (51349719, 2), (519083233, 3), (524726509, 3), (530305505, 3), (535945728, 3),
  (541584404, 3), (547274055, 3), (552967236, 3), (558667862, 3), (564360216, 3), (570128148, 3),
  (57596508, 2), (581701952, 3), (587532523, 3), (593361144, 3), (599246128, 3), (605033418, 3),
  (610958779, 3), (616837117, 3), (622772818, 3), (62867204, 2), (634675369, 3), (640574831, 3),
  (646585739, 3), (652574547, 3), (658611217, 3), (664642684, 3), (670713914, 3), (676737681, 3),
  (682797313, 3), (688837897, 3), (694917874, 3), (701009882, 3), (707173648, 3), (713257254, 3),
  (719415392, 3), (725636761, 3), (731710697, 3), (737906209, 3), (744103074, 3), (75031339, 2),
  (756504185, 3), (762712579, 3), (768876985, 3), (775167859, 3), (7813590, 1), (787615959, 3),
  (793863597, 3), (800245477, 3), (806464582, 3), (812785294, 3), (819005925, 3), (825403057, 3),
  (831676197, 3), (837936284, 3), (844266968, 3), (850642711, 3), (856959756, 3), (863322774, 3),
  (869699931, 3), (876102478, 3), (882355787, 3), (888694463, 3), (895159952, 3), (901536143, 3),
  (907872631, 3), (914293672, 3), (92061514, 2), (927130974, 3), (933409404, 3), (939922178, 3),
  (94633147, 2), (95274593, 2), (959209264, 3), (965590224, 3), (972077284, 3), (978501961, 3),
  (98495319, 2), (991413271, 3), (997817479, 3), (1004222658, 3), (1010725676, 3), (1017177138, 3),
  (1023612529, 3), (1030098236, 3), (1036493719, 3), (1043112207, 3), (1049537036, 3),
  (1056008096, 3), (1062476184, 3), (1068942337, 3), (107552495, 2), (1081932864, 3),
  (1088426025, 3), (1094776005, 3), (1101327448, 3), (1107901673, 3), (1114423639, 3),
  (1120884602, 3), (1127324923, 3), (113379424, 2), (1140328886, 3), (1146849376, 3),
  (1153346682, 3), (1159836502, 3), (1166478703, 3), (1172953304, 3), (1179391502, 3),
  (1185950982, 3), (1192544052, 3), (119891341, 2), (1205430994, 3), (1212015525, 3),
  (1218674042, 3), (1225121683, 3), (1231551101, 3), (1238126379, 3), (1244673795, 3),
  (1251260649, 3), (125769786, 2), (1264320983, 3), (1270736319, 3), (1277274694, 3),
  (128380495, 2), (1290211514, 3), (1296858568, 3), (1303455691, 3)]

/-- `BIAS_DATA[0]`, precision 4 (src/constants.rs:1174-1254). -/
def bias4 : List (ℤ × ℕ) := [
  (100, 1), (9717, 3), (9207, 3), (87896, 4), (82882, 4), (78204, 4), (73772, 4), (69342, 4),
  (65202, 4), (6161, 3), (57722, 4), (54636, 4), (50396, 4), (46766, 4), (43566, 4), (40454, 4),
  (37936, 4), (34856, 4), (32666, 4), (29946, 4), (2766, 3), (24692, 4), (23638, 4), (20764, 4),
  (17864, 4), (17602, 4), (14814, 4), (1433, 3), (12926, 4), (10664, 4), (999600000000001, 15),
  (7956, 4), (5366, 4), (589399999999998, 15), (573799999999999, 15), (269799999999996, 15),
  (368200000000002, 15), (544000000000011, 16), (234200000000001, 15), (108000000000033, 16),
  (-203400000000002, 15), (-701999999999998, 16), (-129600000000003, 15), (-364199999999997, 15),
  (-480600000000003, 15), (-226999999999997, 15), (-322800000000001, 15), (-382599999999996, 15),
  (-511200000000002, 15), (-669600000000003, 15), (-749400000000001, 15), (-500399999999999, 15),
  (-617600000000003, 15), (-6922, 4), (-601599999999998, 15), (-416200000000003, 15),
  (-338200000000001, 15), (-782600000000002, 15), (-648600000000002, 15), (-919800000000002, 15),
  (-851799999999997, 15), (-962400000000002, 15), (-6402, 4), (-11922, 4), (-10256, 4), (-1086, 3),
  (-121899999999999, 14), (-819400000000002, 15), (-940600000000003, 15), (-11554, 4), (-12072, 4),
  (-11752, 4), (-116759999999999, 14), (-114019999999999, 14), (-13754, 4), (-129859999999999, 14),
  (-1607, 3), (-13292, 4), (-17606, 4)]

/-- `BIAS_DATA[1]`, precision 5 (src/constants.rs:1256-1416). -/
def bias5 : List (ℤ × ℕ) := [
  (220, 1), (211194, 4), (208208, 4), (202318, 4), (1977, 2), (192436, 4), (187774, 4),
  (182848, 4), (178224, 4), (173742, 4), (169336, 4), (16503, 3), (160494, 4), (156292, 4),
  (152124, 4), (14798, 3), (14367, 3), (139728, 4), (135944, 4), (13217, 3), (128438, 4),
  (123696, 4), (120956, 4), (117044, 4), (11324, 3), (110668, 4), (106698, 4), (103644, 4),
  (10049, 3), (96918, 4), (94146, 4), (9082, 3), (8687, 3), (85398, 4), (82462, 4), (7857, 3),
  (76606, 4), (74168, 4), (71248, 4), (69222, 4), (66804, 4), (6447, 3), (63454, 4), (59594, 4),
  (57636, 4), (55776, 4), (5331, 3), (519, 2), (49676, 4), (47564, 4), (45314, 4), (44442, 4),
  (43708, 4), (39774, 4), (39624, 4), (38796, 4), (3755, 3), (3472, 3), (32076, 4), (31024, 4),
  (28908, 4), (27338, 4), (27728, 4), (2629, 3), (2413, 3), (23266, 4), (21524, 4), (22642, 4),
  (21806, 4), (20566, 4), (19192, 4), (17598, 4), (13516, 4), (15802, 4), (143859999999999, 14),
  (149160000000001, 14), (11524, 4), (11892, 4), (841399999999993, 15), (879800000000003, 15),
  (837599999999995, 15), (469800000000006, 15), (765600000000006, 15), (331000000000003, 15),
  (591399999999993, 15), (601200000000006, 15), (701599999999999, 15), (558199999999999, 15),
  (339399999999998, 15), (354399999999998, 15), (491200000000006, 15), (308000000000007, 15),
  (355199999999996, 15), (-254000000000048, 16), (205200000000005, 15), (-272999999999996, 15),
  (132199999999997, 15), (394400000000005, 15), (-241200000000006, 15), (242000000000004, 15),
  (191400000000002, 15), (253799999999998, 15), (-122399999999999, 15), (-370800000000003, 15),
  (193200000000004, 15), (-848000000000013, 16), (867999999999967, 16), (-327200000000005, 15),
  (-285600000000002, 15), (311400000000006, 15), (-128399999999999, 15), (-754999999999995, 15),
  (-209199999999996, 15), (-293599999999998, 15), (-364000000000004, 15), (-253600000000006, 15),
  (-821200000000005, 15), (-253600000000006, 15), (-510400000000004, 15), (-383399999999995, 15),
  (-491799999999998, 15), (-220200000000006, 15), (-972000000000008, 16), (-557400000000001, 15),
  (-114599999999996, 15), (-295000000000002, 15), (-534800000000004, 15), (346399999999988, 15),
  (-65379999999999, 14), (398000000000138, 16), (341999999999985, 16), (-995800000000003, 15),
  (-523400000000009, 15), (-489000000000004, 15), (-274799999999999, 15), (-574999999999989, 15),
  (-482799999999997, 15), (571999999999946, 16), (-330600000000004, 15), (-628800000000012, 15),
  (-140199999999993, 15), (-540600000000012, 15), (-445999999999998, 15), (-599400000000003, 15),
  (-262599999999992, 15), (163399999999996, 15), (-100599999999986, 15), (-39500000000001, 14),
  (-106960000000001, 14), (-836399999999998, 15), (-753199999999993, 15), (-412399999999991, 15),
  (-790400000000005, 15), (-29679999999999, 14), (-28540000000001, 14), (-193000000000012, 15),
  (-772000000000048, 16), (-962799999999987, 15), (-414800000000014, 15)]

/-- `BIAS_DATA[2]`, precision 6 (src/constants.rs:1418-1619). -/
def bias6 : List (ℤ × ℕ) := [
  (450, 1), (441902, 4), (43271, 3), (428358, 4), (418142, 4), (412854, 4), (40317, 3), (39354, 3),
  (388924, 4), (379436, 4), (374596, 4), (365262, 4), (356248, 4), (351574, 4), (342822, 4),
  (33837, 3), (329636, 4), (32074, 3), (317042, 4), (307976, 4), (304772, 4), (296564, 4),
  (287942, 4), (285004, 4), (27686, 3), (27291, 3), (265672, 4), (258556, 4), (254982, 4),
  (248204, 4), (244252, 4), (237744, 4), (230786, 4), (228344, 4), (220294, 4), (218098, 4),
  (210794, 4), (205732, 4), (201878, 4), (195648, 4), (192902, 4), (186784, 4), (183352, 4),
  (178946, 4), (173712, 4), (170852, 4), (16499, 3), (162686, 4), (156844, 4), (152234, 4),
  (149732, 4), (143356, 4), (142286, 4), (137262, 4), (133284, 4), (131048, 4), (125962, 4),
  (123562, 4), (121272, 4), (114184, 4), (114974, 4), (110822, 4), (10856, 3), (1048, 2),
  (102834, 4), (100208, 4), (9637, 3), (951739999999999, 14), (905759999999999, 14),
  (874760000000001, 14), (842700000000001, 14), (81326, 4), (82372, 4), (82788, 4), (76776, 4),
  (779259999999999, 14), (71952, 4), (69564, 4), (66454, 4), (687, 2), (65428, 4),
  (619999999999999, 14), (602940000000001, 14), (562780000000001, 14), (56782, 4), (5792, 3),
  (535159999999999, 14), (528319999999999, 14), (50394, 4), (507480000000001, 14),
  (449119999999999, 14), (484899999999999, 14), (4696, 3), (454040000000001, 14),
  (407300000000001, 14), (437139999999999, 14), (37216, 4), (37328, 4), (342080000000001, 14),
  (341839999999999, 14), (394239999999999, 14), (327719999999999, 14), (3411, 3),
  (313079999999999, 14), (276900000000001, 14), (292580000000001, 14), (268279999999999, 14),
  (275020000000001, 14), (270599999999999, 14), (23886, 4), (301859999999999, 14),
  (245179999999999, 14), (292699999999999, 14), (241720000000001, 14), (241139999999999, 14),
  (203299999999999, 14), (251240000000001, 14), (25564, 4), (260079999999999, 14),
  (241720000000001, 14), (180439999999999, 14), (199700000000001, 14), (245480000000001, 14),
  (18948, 4), (22346, 4), (230860000000001, 14), (215479999999999, 14), (188419999999999, 14),
  (16508, 4), (677199999999999, 15), (172540000000001, 14), (14752, 4), (172280000000001, 14),
  (166139999999999, 14), (116759999999999, 14), (179300000000001, 14), (100059999999999, 14),
  (905200000000008, 15), (659999999999997, 15), (155879999999999, 14), (11636, 4),
  (688199999999995, 15), (712600000000009, 15), (450199999999995, 15), (11978, 4),
  (975599999999986, 15), (165400000000005, 15), (1727, 3), (119739999999999, 14),
  (-252600000000001, 15), (113460000000001, 14), (13048, 4), (119479999999999, 14),
  (313400000000001, 15), (878999999999991, 15), (112039999999999, 14), (853000000000009, 15),
  (167920000000001, 14), (856999999999999, 15), (448599999999999, 15), (12362, 4),
  (953399999999988, 15), (102859999999998, 14), (563199999999995, 15), (663000000000011, 15),
  (723000000000013, 15), (756599999999992, 15), (256599999999992, 15), (-837600000000009, 15),
  (620000000000005, 15), (821599999999989, 15), (216600000000028, 15), (205600000000004, 15),
  (220199999999977, 15), (372599999999977, 15), (334400000000016, 15), (928400000000011, 15),
  (972800000000007, 15), (192400000000021, 15), (487199999999973, 15), (-413000000000011, 15),
  (807000000000016, 15), (120600000000024, 15), (769000000000005, 15), (870799999999974, 15),
  (66500000000002, 14), (118200000000002, 15), (401200000000017, 15), (635199999999998, 15),
  (135400000000004, 15), (175599999999974, 15), (116059999999999, 14), (34620000000001, 14),
  (521400000000028, 15), (-586599999999976, 15), (-116480000000001, 14), (968399999999974, 15),
  (836999999999989, 15), (779600000000016, 15), (985799999999983, 15)]

/-- `BIAS_DATA[3]`, precision 7 (src/constants.rs:1621-1822). -/
def bias7 : List (ℤ × ℕ) := [
  (910, 1), (894934, 4), (879758, 4), (864574, 4), (849718, 4), (834954, 4), (815302, 4),
  (800756, 4), (786374, 4), (771782, 4), (757888, 4), (739522, 4), (72592, 3), (712532, 4),
  (699086, 4), (685938, 4), (669474, 4), (656796, 4), (644394, 4), (632176, 4), (619768, 4),
  (604214, 4), (592528, 4), (580102, 4), (568658, 4), (557278, 4), (543044, 4), (531316, 4),
  (52093, 3), (510032, 4), (499092, 4), (486306, 4), (475294, 4), (465756, 4), (456508, 4),
  (44662, 3), (43552, 3), (423724, 4), (41617, 3), (405754, 4), (397872, 4), (388444, 4),
  (377988, 4), (368606, 4), (362118, 4), (353566, 4), (344476, 4), (335882, 4), (326816, 4),
  (320824, 4), (310258, 4), (306048, 4), (294436, 4), (287274, 4), (27957, 3), (27147, 3),
  (264364, 4), (257592, 4), (253386, 4), (24781, 3), (238028, 4), (23656, 3), (226544, 4),
  (21996, 3), (214718, 4), (211544, 4), (206098, 4), (195956, 4), (190616, 4), (185758, 4),
  (184878, 4), (175244, 4), (172146, 4), (16724, 3), (158722, 4), (155198, 4), (150414, 4),
  (14941, 3), (149048, 4), (1387, 2), (134304, 4), (13028, 3), (124708, 4), (1237, 2), (120624, 4),
  (114668, 4), (115532, 4), (114352, 4), (112564, 4), (102744, 4), (102118, 4),
  (974720000000002, 14), (101456, 4), (92928, 4), (875040000000001, 14), (855279999999999, 14),
  (897899999999998, 14), (821019999999999, 14), (818340000000001, 14), (73494, 4),
  (732499999999999, 14), (766140000000001, 14), (690300000000002, 14), (725439999999998, 14),
  (69042, 4), (721499999999997, 14), (628640000000001, 14), (608139999999997, 14), (66764, 4),
  (630099999999999, 14), (513900000000001, 14), (565800000000002, 14), (517320000000001, 14),
  (459019999999998, 14), (49538, 4), (508280000000002, 14), (492200000000003, 14),
  (499020000000002, 14), (47328, 4), (54538, 4), (411360000000002, 14), (422340000000003, 14),
  (408780000000002, 14), (370800000000003, 14), (415559999999999, 14), (418520000000001, 14),
  (363720000000001, 14), (368220000000002, 14), (377960000000002, 14), (36078, 4),
  (249160000000001, 14), (313099999999997, 14), (25376, 4), (319880000000001, 14),
  (321100000000001, 14), (24502, 4), (352820000000003, 14), (291199999999998, 14),
  (304480000000001, 14), (27432, 4), (285239999999999, 14), (279880000000003, 14),
  (278579999999999, 14), (188679999999999, 14), (298860000000002, 14), (250639999999999, 14),
  (191239999999999, 14), (266160000000002, 14), (246820000000002, 14), (158199999999999, 14),
  (130399999999997, 14), (227379999999999, 14), (268939999999998, 14), (132900000000001, 14),
  (310599999999999, 14), (169080000000002, 14), (213740000000001, 14), (253219999999999, 14),
  (188479999999998, 14), (133240000000001, 14), (145119999999997, 14), (117899999999997, 14),
  (244119999999998, 14), (160659999999996, 14), (216700000000003, 14), (77940000000001, 14),
  (237900000000002, 14), (206700000000001, 14), (146000000000004, 14), (291160000000002, 14),
  (169200000000001, 14), (954600000000028, 15), (249300000000005, 14), (22722, 4),
  (133500000000004, 14), (244899999999996, 14), (120140000000004, 14), (307380000000001, 14),
  (209739999999999, 14), (285640000000001, 14), (229960000000005, 14), (240899999999999, 14),
  (197040000000004, 14), (809799999999996, 15), (165279999999996, 14), (259979999999996, 14),
  (95799999999997, 14), (206799999999998, 14), (232780000000002, 14), (420159999999998, 14),
  (196320000000003, 14), (186400000000003, 14), (142999999999995, 14), (377940000000001, 14),
  (127200000000005, 14), (186440000000005, 14), (220600000000002, 14), (321900000000005, 14),
  (15154, 4), (261019999999996, 14)]

/-- `BIAS_DATA[4]`, precision 8 (src/constants.rs:1824-2025). -/
def bias8 : List (ℤ × ℕ) := [
  (1832152, 4), (1802454, 4), (1772096, 4), (1736652, 4), (1706312, 4), (1676822, 4), (164249, 3),
  (1613296, 4), (1580038, 4), (1552074, 4), (1524612, 4), (14927, 2), (1465178, 4), (1434412, 4),
  (1408032, 4), (1381634, 4), (1351688, 4), (1326074, 4), (1296946, 4), (1272664, 4), (1248228, 4),
  (1220432, 4), (1196824, 4), (1169464, 4), (1146268, 4), (1122626, 4), (1098376, 4), (1074034, 4),
  (1048956, 4), (1028522, 4), (1007638, 4), (983552, 4), (963556, 4), (937526, 4), (919292, 4),
  (898954, 4), (878198, 4), (857668, 4), (83298, 3), (816688, 4), (799466, 4), (779746, 4),
  (761672, 4), (743474, 4), (723028, 4), (708912, 4), (69114, 3), (674646, 4), (659744, 4),
  (644092, 4), (626022, 4), (60843, 3), (595684, 4), (581652, 4), (565426, 4), (554152, 4),
  (535388, 4), (523592, 4), (511366, 4), (49486, 3), (483918, 4), (465076, 4), (45509, 3),
  (443834, 4), (433498, 4), (420668, 4), (407346, 4), (401228, 4), (384528, 4), (377, 1),
  (36644, 3), (360518, 4), (345774, 4), (339068, 4), (32432, 3), (321666, 4), (30434, 3),
  (296644, 4), (284894, 4), (276312, 4), (263804, 4), (26292, 3), (255496000000001, 13),
  (250234, 4), (248206, 4), (226146, 4), (224188, 4), (22117, 3), (206762, 4), (206576, 4),
  (197864, 4), (19509, 3), (185334, 4), (179204, 4), (17772, 3), (162924, 4), (168654, 4),
  (151836, 4), (15745, 3), (151316, 4), (150386, 4), (140136, 4), (136342, 4), (126196, 4),
  (121866, 4), (124281999999999, 13), (113324, 4), (104794000000001, 13), (115038, 4), (10129, 3),
  (952800000000002, 14), (103203999999999, 13), (946299999999997, 14), (979280000000006, 14),
  (912300000000005, 14), (874180000000001, 14), (92192, 4), (751020000000005, 14),
  (760659999999996, 14), (701840000000004, 14), (722239999999999, 14), (740139999999997, 14),
  (676179999999999, 14), (714359999999999, 14), (565060000000005, 14), (563779999999997, 14),
  (576599999999996, 14), (675139999999999, 14), (557759999999996, 14), (373220000000003, 14),
  (58048, 4), (563019999999995, 14), (493359999999996, 14), (347979999999995, 14),
  (433879999999999, 14), (398940000000005, 14), (381960000000004, 14), (331359999999995, 14),
  (323080000000004, 14), (34588, 4), (308159999999998, 14), (34076, 4), (300639999999999, 14),
  (238779999999997, 14), (261900000000003, 14), (199800000000005, 14), (334820000000002, 14),
  (295060000000001, 14), (990999999999985, 15), (211440000000005, 14), (220299999999997, 14),
  (282219999999995, 14), (273239999999998, 14), (27826, 4), (376660000000004, 14),
  (226480000000004, 14), (231280000000004, 14), (240819999999997, 14), (275360000000001, 14),
  (333759999999995, 14), (271559999999999, 14), (17478000000001, 13), (142920000000004, 14),
  (239300000000003, 14), (222779999999989, 14), (234339999999997, 14), (87259999999992, 14),
  (388400000000001, 14), (180600000000004, 14), (191759999999999, 14), (116779999999994, 14),
  (150320000000011, 14), (252500000000009, 14), (226400000000012, 15), (231500000000005, 14),
  (930000000000064, 15), (125199999999995, 14), (214959999999996, 14), (407999999999902, 16),
  (25447999999999, 13), (132960000000003, 14), (197400000000016, 15), (252620000000002, 14),
  (333279999999991, 14), (-134300000000007, 14), (422199999999975, 15), (917200000000093, 15),
  (112920000000008, 14), (146060000000011, 14), (145779999999991, 14), (28728000000001, 13),
  (333359999999993, 14), (-134079999999994, 14), (157680000000005, 14), (363000000000056, 15),
  (140740000000005, 14), (656600000000026, 15), (801400000000058, 15), (-454600000000028, 15),
  (151919999999996, 14)]

/-- `BIAS_DATA[5]`, precision 9 (src/constants.rs:2027-2229). -/
def bias9 : List (ℤ × ℕ) := [
  (3680, 1), (3618294, 4), (3552452, 4), (3486698, 4), (3421464, 4), (3362024, 4), (3298782, 4),
  (3236598, 4), (317462, 3), (3112826, 4), (3057102, 4), (2997416, 4), (2939366, 4), (2881046, 4),
  (282285, 3), (2770668, 4), (271306, 3), (2658448, 4), (260301, 3), (2549886, 4), (2502422, 4),
  (2448138, 4), (2397074, 4), (2347428, 4), (2298402, 4), (2251664, 4), (2203534, 4), (215594, 3),
  (2106886, 4), (2057876, 4), (20165, 2), (197228, 3), (1928036, 4), (1881666, 4), (1840818, 4),
  (1800824, 4), (1762574, 4), (172302, 3), (1681644, 4), (1640056, 4), (1603802, 4), (1567192, 4),
  (1525234, 4), (1492084, 4), (145831, 3), (142485, 3), (1391112, 4), (1354764, 4), (13176, 2),
  (1293368, 4), (1265538, 4), (1225058, 4), (1192646, 4), (1165902, 4), (1133818, 4), (1108998, 4),
  (1079532, 4), (1052062, 4), (1022798, 4), (994728, 4), (969582, 4), (943292, 4), (92171, 3),
  (897809999999999, 13), (875716, 4), (847048, 4), (825322, 4), (79875, 3), (783972, 4),
  (753464, 4), (737274, 4), (712834, 4), (701444, 4), (684263999999999, 13), (660166, 4),
  (64018, 3), (620437999999999, 13), (603399999999999, 13), (586856, 4), (579836, 4),
  (550311999999999, 13), (546769999999999, 13), (523188, 4), (514846, 4), (494423999999999, 13),
  (47739, 3), (461487999999999, 13), (449202, 4), (434059999999999, 13), (425342000000001, 13),
  (412834, 4), (388954000000001, 13), (383286000000001, 13), (362146, 4), (366684, 4), (359946, 4),
  (33123, 3), (334338, 4), (317378000000001, 13), (29076, 3), (289692, 4), (274964, 4),
  (270998, 4), (259864, 4), (267754, 4), (243208, 4), (234838, 4), (227388000000001, 13),
  (240758000000001, 13), (219097999999999, 13), (209728, 4), (199228000000001, 13), (199292, 4),
  (16617, 3), (1705, 2), (182996000000001, 13), (156128000000001, 13), (157392, 4), (145174, 4),
  (136322, 4), (122583999999999, 13), (133766000000001, 13), (11423, 3), (131232, 4),
  (951639999999998, 14), (105938000000001, 13), (959719999999993, 14), (812220000000002, 14),
  (976739999999995, 14), (750440000000003, 14), (756999999999994, 14), (670440000000008, 14),
  (641419999999994, 14), (671019999999999, 14), (560940000000005, 14), (465219999999999, 14),
  (684099999999989, 14), (34072000000001, 13), (397859999999991, 14), (332760000000007, 14),
  (552160000000003, 14), (331860000000006, 14), (206940000000009, 14), (435400000000004, 14),
  (157500000000005, 14), (280799999999999, 15), (212879999999996, 14), (-214799999999968, 15),
  (-378000000000611, 16), (-658200000000079, 15), (654800000000023, 15), (-697999999999865, 16),
  (858400000000074, 15), (-252700000000004, 14), (-21751999999999, 13), (-335539999999992, 14),
  (-104019999999991, 14), (-651000000000067, 15), (-214439999999991, 14), (-196659999999997, 14),
  (-397939999999994, 14), (-604400000000169, 15), (-308260000000018, 14), (-339159999999993, 14),
  (-529640000000018, 14), (-538920000000007, 14), (-508759999999984, 14), (-469900000000007, 14),
  (-523720000000003, 14), (-315779999999995, 14), (-497879999999986, 14), (-489899999999989, 14),
  (-748880000000008, 14), (-594799999999987, 14), (-568060000000014, 14), (-667180000000008, 14),
  (-470499999999993, 14), (-727779999999984, 14), (-46579999999999, 13), (-44362000000001, 13),
  (-432139999999981, 14), (-518859999999995, 14), (-666879999999992, 14), (-648399999999992, 14),
  (-51260000000002, 13), (-44032000000002, 13), (-613500000000022, 14), (-580819999999994, 14),
  (-416719999999987, 14), (-415039999999999, 14), (-745600000000013, 14), (-724080000000004, 14),
  (-983179999999993, 14), (-580420000000004, 14), (-86561999999999, 13), (-699940000000015, 14),
  (-105473999999999, 13), (-734139999999979, 14), (-680999999999995, 14), (-629719999999998, 14),
  (-623199999999997, 14)]

/-- `BIAS_DATA[6]`, precision 10 (src/constants.rs:2231-2432). -/
def bias10 : List (ℤ × ℕ) := [
  (7371256, 4), (7244234, 4), (7111064, 4), (6984732, 4), (6854636, 4), (6730644, 4), (660488, 3),
  (6479654, 4), (6360832, 4), (6237864, 4), (6121992, 4), (6002176, 4), (5885228, 4), (5771716, 4),
  (5657752, 4), (554899, 3), (5436126, 4), (5326492, 4), (5219474, 4), (5115214, 4), (5011064, 4),
  (4906364, 4), (4802468, 4), (4704588, 4), (4603832, 4), (4510584, 4), (4408606, 4), (4313868, 4),
  (4225062, 4), (4131862, 4), (404463, 3), (395339, 3), (3861936, 4), (3781292, 4), (3691854, 4),
  (3612908, 4), (3533324, 4), (3448518, 4), (3375204, 4), (3294854, 4), (3219318, 4), (314552, 3),
  (3064658, 4), (2994256, 4), (292849, 3), (286152, 3), (2788956, 4), (2718792, 4), (265118, 3),
  (25862, 2), (2525132, 4), (2459322, 4), (2397726, 4), (2336086, 4), (2275332, 4), (2225918, 4),
  (2164294, 4), (2107662, 4), (2054106, 4), (1997338, 4), (1949012, 4), (1884486, 4), (1831556, 4),
  (1786338, 4), (1737312, 4), (1696264, 4), (1639526, 4), (1598742, 4), (1558326, 4), (1511966, 4),
  (1475594, 4), (14307, 2), (140037, 3), (1341804, 4), (131071, 3), (1274884, 4), (1240848, 4),
  (1202944, 4), (117333, 3), (1129626, 4), (1102902, 4), (1070814, 4), (1030334, 4),
  (994832000000001, 13), (963899999999999, 13), (937202000000002, 13), (901714000000002, 13),
  (872357999999999, 13), (859346, 4), (828910000000001, 13), (800264000000002, 13),
  (783834000000002, 13), (751543999999999, 13), (738683999999998, 13), (709895999999999, 13),
  (694367999999999, 13), (648701999999998, 13), (650408000000002, 13), (616738, 4),
  (595207999999998, 13), (570158000000001, 13), (542302, 4), (530962, 4), (504985999999999, 13),
  (522588000000001, 13), (473914, 4), (456244000000002, 13), (428377999999998, 13), (430072, 4),
  (406516000000001, 13), (402453999999998, 13), (352136, 4), (364546, 4), (337849999999999, 13),
  (332294000000002, 13), (324679999999998, 13), (308670000000002, 13), (286507999999999, 13),
  (289099999999999, 13), (275983999999999, 13), (261619999999998, 13), (245563999999999, 13),
  (232328000000002, 13), (219484000000002, 13), (215902000000001, 13), (213346000000001, 13),
  (177031999999999, 13), (206111999999998, 13), (195545999999999, 13), (157375999999999, 13),
  (170720000000001, 13), (169517999999998, 13), (15326, 3), (131817999999998, 13),
  (146925999999999, 13), (130859999999998, 13), (132754, 4), (108697999999999, 13), (11248, 3),
  (73768, 4), (472339999999986, 14), (797899999999981, 14), (87503999999999, 13),
  (768119999999999, 14), (97199999999998, 13), (773919999999998, 14), (56224000000002, 13),
  (744560000000001, 14), (66601999999998, 13), (59058, 4), (400199999999995, 14),
  (451699999999983, 14), (468240000000014, 14), (386220000000003, 14), (513639999999987, 14),
  (598500000000013, 14), (247719999999981, 14), (261999999999989, 14), (162800000000016, 14),
  (465000000000009, 14), (225599999999758, 15), (831000000000131, 15), (-359400000000278, 15),
  (127599999999984, 14), (-292559999999958, 14), (-303999999996449, 16), (237079999999969, 14),
  (-20033999999996, 13), (804600000000391, 15), (30199999999968, 14), (11247999999996, 13),
  (-26880000000001, 13), (321999999996478, 16), (-118099999999959, 14), (-39402, 4),
  (-147940000000017, 14), (-188400000000001, 15), (-210720000000038, 14), (-204159999999956, 14),
  (-312880000000041, 14), (-416160000000036, 14), (-612799999999879, 15), (-348719999999958, 14),
  (-817900000000009, 14), (-537780000000021, 14), (-401379999999972, 14), (-558259999999973, 14),
  (-573719999999958, 14), (-766799999999967, 14), (-569520000000011, 14), (-11247999999996, 13),
  (-558520000000044, 14), (-804560000000038, 14), (-464840000000004, 14), (-116468000000004, 13),
  (-797519999999986, 14), (-578300000000036, 14), (-767420000000038, 14), (-106328000000003, 13),
  (-981720000000041, 14)]

/-- `BIAS_DATA[7]`, precision 11 (src/constants.rs:2434-2636). -/
def bias11 : List (ℤ × ℕ) := [
  (14760, 1), (14496014, 4), (14235802, 4), (13977942, 4), (13723042, 4), (13472062, 4),
  (13218402, 4), (12972292, 4), (12729462, 4), (12489926, 4), (12253026, 4), (12014252, 4),
  (11780578, 4), (11556092, 4), (1132626, 3), (11105568, 4), (1088527, 3), (10665154, 4),
  (10451874, 4), (10243878, 4), (100337, 2), (9821972, 4), (9625728, 4), (9421012, 4),
  (9229668, 4), (903292, 3), (8840772, 4), (8648578, 4), (8466562, 4), (828041, 3), (809714, 3),
  (7923112, 4), (7751806, 4), (7579854, 4), (740656, 3), (724346, 3), (7075154, 4), (6918378, 4),
  (6757448, 4), (6596722, 4), (6455722, 4), (6301462, 4), (6144124, 4), (6008728, 4), (585898, 3),
  (572408, 3), (5584926, 4), (5444938, 4), (5316776, 4), (517282, 3), (5057704, 4), (4931012, 4),
  (4807388, 4), (4676876, 4), (4561872, 4), (4455048, 4), (4330214, 4), (420806, 3), (411409, 3),
  (4004144, 4), (3894294, 4), (3792286, 4), (369651, 3), (3606156, 4), (350337, 3), (342083, 3),
  (3321538, 4), (3225094, 4), (31501, 2), (3056686, 4), (2981678, 4), (2878116, 4), (2809978, 4),
  (2719204, 4), (2653286, 4), (2575706, 4), (2496014, 4), (242544, 3), (2355976, 4), (229583, 3),
  (2209438, 4), (214672, 3), (2082786, 4), (2018628, 4), (1951834, 4), (191505, 3), (1861816, 4),
  (1785188, 4), (1722294, 4), (1678908, 4), (1610194, 4), (158052, 3), (1514588, 4), (1481596, 4),
  (1434344, 4), (1385238, 4), (13313, 2), (1276374, 4), (1248162, 4), (1187894, 4), (1173984, 4),
  (1146078, 4), (1090858, 4), (1051036, 4), (1036258, 4), (986018000000004, 13),
  (957618000000002, 13), (935821999999998, 13), (885900000000001, 13), (869992000000002, 13),
  (828800000000001, 13), (804539999999997, 13), (746981999999998, 13), (743644000000004, 13),
  (732914000000001, 13), (655709999999999, 13), (669232000000002, 13), (651913999999997, 13),
  (625882000000001, 13), (615702000000001, 13), (557035999999998, 13), (561764000000003, 13),
  (527596000000003, 13), (530302000000001, 13), (490609999999997, 13), (484694, 4), (44933, 3),
  (460474000000004, 13), (447165999999997, 13), (419416000000001, 13), (399207999999999, 13),
  (356328000000003, 13), (355276000000003, 13), (331934000000001, 13), (332371999999996, 13),
  (333864000000003, 13), (339228000000003, 13), (302371999999996, 13), (291373999999996, 13),
  (252272000000003, 13), (242942000000003, 13), (198338000000003, 13), (189005999999999, 13),
  (230907999999999, 13), (218544000000002, 13), (195176000000001, 13), (154147999999996, 13),
  (169314000000004, 13), (186737999999996, 13), (129877999999999, 13), (143688000000002, 13),
  (120447999999997, 13), (155219999999999, 13), (125299999999997, 13), (145940000000001, 13),
  (143131999999996, 13), (945499999999993, 14), (129441999999999, 13), (391139999999996, 14),
  (131373999999996, 13), (544720000000052, 14), (982779999999912, 14), (787279999999919, 14),
  (367760000000089, 14), (546980000000076, 14), (555099999999948, 14), (565979999999945, 14),
  (389439999999922, 14), (31275999999998, 13), (565140000000065, 14), (63062000000009, 13),
  (390799999999945, 14), (187060000000019, 14), (517020000000048, 14), (246680000000015, 14),
  (770000000000437, 15), (-372340000000077, 14), (116400000000067, 14), (805340000000069, 14),
  (135399999999208, 15), (215940000000046, 14), (766999999999825, 15), (10594000000001, 13),
  (315500000000065, 14), (-287399999999252, 15), (237219999999979, 14), (-286620000000039, 14),
  (-163199999999961, 14), (-222979999999916, 14), (-15519999999924, 14), (-146039999999994, 14),
  (-262199999999211, 15), (-234460000000036, 14), (-28078000000005, 13), (-322179999999935, 14),
  (-560159999999996, 14), (-842200000000048, 14), (-943740000000071, 14), (161799999999857, 15),
  (-104755999999998, 13), (-100823999999993, 13)]

/-- `BIAS_DATA[8]`, precision 12 (src/constants.rs:2638-2840). -/
def bias12 : List (ℤ × ℕ) := [
  (29530, 1), (29004782, 4), (28483568, 4), (27963666, 4), (2745324, 3), (26949598, 4),
  (2644648, 3), (2595539, 3), (25461474, 4), (24982576, 4), (24508376, 4), (24036076, 4),
  (2357451, 3), (231138, 2), (22664104, 4), (22215638, 4), (21769676, 4), (2134193, 3),
  (2090838, 3), (20488548, 4), (2007018, 3), (19661742, 4), (19254482, 4), (18851294, 4),
  (18464776, 4), (18074044, 4), (17688724, 4), (17313732, 4), (16934304, 4), (16575326, 4),
  (1621949, 3), (15865532, 4), (15517256, 4), (15176182, 4), (14835186, 4), (14504528, 4),
  (1417865, 3), (13857164, 4), (13526828, 4), (13226708, 4), (12918312, 4), (12609036, 4),
  (1231476, 3), (12018652, 4), (11736718, 4), (1145757, 3), (11192072, 4), (10922828, 4),
  (10650434, 4), (10386264, 4), (10143192, 4), (9885746, 4), (9650816, 4), (9401176, 4),
  (9179796, 4), (8945576, 4), (8711858, 4), (8499144, 4), (8271142, 4), (8050818, 4), (7839664, 4),
  (7639096, 4), (7420816, 4), (7243962, 4), (7063454, 4), (688018, 3), (6674214, 4), (6503106, 4),
  (6330686, 4), (6138094, 4), (597818, 3), (5814248, 4), (563834, 3), (547363, 3), (5315066, 4),
  (520455400000001, 12), (505583199999999, 12), (488366, 3), (476480799999999, 12), (4597682, 4),
  (4500522, 4), (434328799999999, 12), (423952799999999, 12), (408727000000001, 12),
  (399079400000001, 12), (387252200000001, 12), (373987999999999, 12), (360852000000001, 12),
  (3516394, 4), (339642, 3), (330902400000001, 12), (322661599999999, 12), (311662200000001, 12),
  (3013254, 4), (2917484, 4), (279939200000001, 12), (2767508, 4), (263215200000001, 12),
  (254811400000001, 12), (2455494, 4), (242306399999999, 12), (2348734, 4), (223787200000001, 12),
  (2177156, 4), (2120196, 4), (200793, 3), (1959748, 4), (1890702, 4), (182449199999999, 12),
  (1772772, 4), (1702336, 4), (164741, 3), (158613600000001, 12), (155311, 3), (1475964, 4),
  (142837, 3), (1373724, 4), (1320162, 4), (1300424, 4), (1219804, 4), (120451800000001, 12),
  (1148968, 4), (111585999999999, 12), (105933199999999, 12), (101705, 3), (985141999999996, 13),
  (950488000000005, 13), (897880000000005, 13), (914750000000004, 13), (837764000000006, 13),
  (809698000000008, 13), (728574000000008, 13), (731615999999995, 13), (675838000000003, 13),
  (626263999999992, 13), (632638000000006, 13), (660977999999996, 13), (520843999999997, 13),
  (589956000000002, 13), (470912000000008, 13), (464956000000002, 13), (484383999999991, 13),
  (471082000000006, 13), (432392, 4), (372759999999998, 13), (400283999999992, 13),
  (351864000000005, 13), (358595999999998, 13), (320998, 4), (28027, 3), (236694000000007, 13),
  (338266000000003, 13), (263736000000008, 13), (272008000000005, 13), (213245999999999, 13),
  (264115999999995, 13), (234521999999997, 13), (195013999999992, 13), (198513999999996, 13),
  (107492000000002, 13), (186424000000006, 13), (131265999999996, 13), (182436000000016, 13),
  (671860000000015, 14), (339459999999963, 14), (633759999999893, 14), (776719999999841, 14),
  (813999999998487, 15), (382819999999992, 14), (826199999999517, 15), (807440000000133, 14),
  (-159080000000176, 14), (501780000000144, 14), (455399999998917, 15), (-24199999999837, 14),
  (174800000000687, 15), (-907640000000174, 14), (-420160000000033, 14), (-377520000000004, 14),
  (-475179999999818, 14), (-53724000000002, 13), (-890680000000066, 14), (-610239999999976, 14),
  (-574120000000039, 14), (-995339999999851, 14), (-386339999999836, 14), (-137304000000004, 13),
  (-162710000000006, 13), (-751359999999841, 14), (-330679999999847, 14), (-131339999999982, 13),
  (-100551999999989, 13), (-672019999999975, 14), (-859660000000076, 14), (-109307999999983, 13),
  (-18775999999998, 13), (-482259999999951, 14), (-137788, 4), (-216470000000008, 13),
  (-106735999999983, 13), (-157799999999988, 13)]

/-- `BIAS_DATA[9]`, precision 13 (src/constants.rs:2842-3043). -/
def bias13 : List (ℤ × ℕ) := [
  (59075052, 4), (58022672, 4), (5697347, 3), (55935794, 4), (54912622, 4), (53905514, 4),
  (52903376, 4), (51916952, 4), (50935988, 4), (49973552, 4), (49025972, 4), (48083082, 4),
  (47155646, 4), (4624109, 3), (45338216, 4), (44444344, 4), (43563802, 4), (42692962, 4),
  (41833784, 4), (4098292, 3), (401479, 2), (39324574, 4), (38506036, 4), (37712712, 4),
  (36917708, 4), (3615099, 3), (35381858, 4), (34634746, 4), (33888496, 4), (33156794, 4),
  (32445448, 4), (31737516, 4), (31033106, 4), (30336094, 4), (29665642, 4), (2900794, 3),
  (28337256, 4), (276981, 2), (27073196, 4), (26440778, 4), (25839916, 4), (25234662, 4),
  (2464124, 3), (2406073, 3), (23470362, 4), (22921006, 4), (22381716, 4), (21827514, 4),
  (21284884, 4), (20771314, 4), (2025037, 3), (19753756, 4), (1928933, 3), (1879311, 3),
  (18310006, 4), (17832144, 4), (17383096, 4), (16945144, 4), (1649024, 3), (1606847, 3),
  (15647528, 4), (15253168, 4), (14825372, 4), (14439668, 4), (14065074, 4), (1365867, 3),
  (13292186, 4), (12954186, 4), (12579716, 4), (1225339, 3), (11932972, 4), (11563578, 4),
  (11258686, 4), (1091187, 3), (10614094, 4), (10294188, 4), (10009126, 4), (9723272, 4),
  (944004199999999, 12), (9157592, 4), (889965, 3), (862834200000001, 12), (8404254, 4),
  (812598399999999, 12), (785924200000001, 12), (763050999999999, 12), (741793799999999, 12),
  (721466, 3), (699040799999999, 12), (677997200000002, 12), (649866999999998, 12),
  (634911800000002, 12), (6098694, 4), (591981599999999, 12), (5702922, 4), (557129199999999, 12),
  (5383858, 4), (521872599999999, 12), (502951400000002, 12), (495776399999999, 12),
  (475171399999999, 12), (459751, 3), (439995200000001, 12), (426708999999999, 12), (4137016, 4),
  (4023868, 4), (387262599999998, 12), (3720524, 4), (357050999999999, 12), (3425098, 4),
  (334849200000001, 12), (322529399999999, 12), (311613799999999, 12), (295848000000002, 12),
  (289273000000001, 12), (274093000000001, 12), (263329600000001, 12), (251389599999999, 12),
  (2457392, 4), (2319614, 4), (2297952, 4), (217155200000001, 12), (2089588, 4),
  (199016599999999, 12), (190839199999999, 12), (1806976, 4), (176272799999999, 12),
  (166976999999999, 12), (1625252, 4), (151196400000001, 12), (149386999999999, 12),
  (133981199999998, 12), (1300586, 4), (130164000000001, 12), (122053400000001, 12), (1107428, 4),
  (1081276, 4), (106232400000001, 12), (100381600000001, 12), (987668000000012, 13),
  (866440000000002, 13), (799768000000004, 13), (824722000000002, 13), (687026000000005, 13),
  (701186000000016, 13), (719948000000004, 13), (58998599999999, 12), (590492000000013, 13),
  (569818000000014, 13), (475338000000011, 13), (429928, 4), (511591999999982, 13),
  (372740000000013, 13), (427220000000016, 13), (313734000000004, 13), (268090000000011, 13),
  (258934000000008, 13), (265286000000015, 13), (295442000000003, 13), (193503999999994, 13),
  (260760000000009, 13), (179527999999991, 13), (148419999999969, 13), (104683999999979, 13),
  (865899999999965, 14), (986720000000059, 14), (434139999999752, 14), (-907800000000861, 15),
  (-332080000000133, 14), (-936199999996461, 15), (-119916000000012, 13), (-887000000000262, 14),
  (-633099999999831, 14), (-113366000000024, 13), (-159207999999999, 13), (-934659999999712, 14),
  (-155034000000014, 13), (-192097999999969, 13), (-15357799999998, 12), (-282235999999975, 13),
  (-306898000000001, 13), (-193271999999997, 13), (-256083999999973, 13), (-24409599999999, 12),
  (-136385999999984, 13), (-334473999999973, 13), (-326949999999997, 13), (-289063999999998, 13),
  (-317483999999968, 13), (-322935999999972, 13), (-358329999999987, 13), (-47620600000002, 12),
  (-390855999999985, 13), (-331434000000008, 13), (-461371999999974, 13), (-375892000000022, 13),
  (-468164000000033, 13), (-473142000000007, 13), (-602914000000019, 13), (-377575999999972, 13)]

/-- `BIAS_DATA[10]`, precision 14 (src/constants.rs:3045-3247). -/
def bias14 : List (ℤ × ℕ) := [
  (11816475, 3), (116050046, 4), (113953792, 4), (111887504, 4), (109841814, 4), (107820086, 4),
  (105820072, 4), (10384503, 3), (10189178, 3), (99962738, 4), (98060344, 4), (96179798, 4),
  (9431394, 3), (92487784, 4), (90676894, 4), (88896824, 4), (87129134, 4), (85388624, 4),
  (83684944, 4), (81977956, 4), (80318916, 4), (78666316, 4), (7703733, 3), (75445726, 4),
  (7386204, 3), (7230666, 3), (70778516, 4), (69267886, 4), (67786902, 4), (66319632, 4),
  (6487304, 3), (63467486, 4), (62064408, 4), (6070202, 3), (59352576, 4), (5799924, 3),
  (56710324, 4), (55419788, 4), (54146112, 4), (52900274, 4), (5166723, 3), (50476906, 4),
  (4929162, 3), (48151406, 4), (4699127, 3), (45885606, 4), (44777394, 4), (43694014, 4),
  (42642728, 4), (41559224, 4), (4055581, 3), (3955505, 3), (38569618, 4), (37613828, 4),
  (36669702, 4), (35757764, 4), (34824132, 4), (33950186, 4), (33058852, 4), (3221415, 3),
  (31386024, 4), (3056296, 3), (29704494, 4), (28961526, 4), (28168008, 4), (27402156, 4),
  (2670497, 3), (25941458, 4), (2527111, 3), (24608168, 4), (23875114, 4), (23229498, 4),
  (22606752, 4), (21942686, 4), (21337792, 4), (2074767, 3), (2015204, 3), (19594226, 4),
  (18986502, 4), (1850006, 3), (1792849, 3), (17414838, 4), (16879778, 4), (16381322, 4),
  (15893266, 4), (15431394, 4), (14968266, 4), (14478516, 4), (14027354, 4), (13619606, 4),
  (13270692, 4), (12854106, 4), (12418112, 4), (12016726, 4), (1161973, 3), (1130261, 3),
  (10942036, 4), (10482036, 4), (10206436, 4), (990901400000002, 12), (961199800000002, 12),
  (924769800000002, 12), (899526400000002, 12), (872346400000002, 12), (834375, 3),
  (810432000000001, 12), (780659800000001, 12), (756013800000001, 12), (733479399999997, 12),
  (707923999999999, 12), (673858, 3), (652222399999999, 12), (636572399999997, 12),
  (615738599999997, 12), (586696400000001, 12), (564147199999999, 12), (541679600000003, 12),
  (523943599999999, 12), (505714599999999, 12), (475729599999999, 12), (461779600000002, 12),
  (449750800000002, 12), (439020799999998, 12), (4127886, 4), (400245600000002, 12),
  (383188199999997, 12), (362079599999997, 12), (357533799999997, 12), (334319000000003, 12),
  (327553399999997, 12), (308559399999998, 12), (291270199999999, 12), (279351999999999, 12),
  (271791400000002, 12), (252576999999997, 12), (247482400000001, 12), (236174800000001, 12),
  (218774599999997, 12), (220155200000001, 12), (208794399999999, 12), (201223599999998, 12),
  (182995600000002, 12), (1855268, 4), (164547400000003, 12), (1765962, 4), (150689599999998, 12),
  (1578004, 4), (138378799999999, 12), (134021200000003, 12), (117614399999999, 12),
  (108194000000003, 12), (970696000000025, 13), (896042000000016, 13), (956030000000028, 13),
  (847810000000027, 13), (72635000000002, 12), (773482000000004, 13), (594907999999996, 13),
  (555875999999989, 13), (507346000000034, 13), (613916000000027, 13), (509149999999936, 13),
  (390384000000049, 13), (589395999999979, 13), (29633600000001, 12), (282032000000036, 13),
  (260078000000067, 13), (170387999999948, 13), (922000000000116, 14), (138387999999977, 13),
  (807240000000456, 14), (141549999999988, 13), (153570000000036, 13), (342660000000615, 14),
  (624820000000182, 14), (-296940000000177, 14), (-879940000000352, 14), (-597860000000219, 14),
  (-144048000000039, 13), (-34143999999942, 13), (-130148000000045, 13), (-116977999999945, 13),
  (-257878000000055, 13), (-223185999999987, 13), (-24409599999999, 12), (-319756000000052, 13),
  (-189722000000038, 13), (-228678000000073, 13), (-308972000000067, 13), (-323715999999986, 13),
  (-223907999999938, 13), (-436720000000059, 13), (-359038, 4), (-397492000000057, 13),
  (-541641999999993, 13), (-452749999999942, 13), (-422989999999991, 13), (-441089999999967, 13),
  (-643564000000042, 13), (-499551999999967, 13), (-426116000000038, 13)]

/-- `BIAS_DATA[11]`, precision 15 (src/constants.rs:3249-3451). -/
def bias15 : List (ℤ × ℕ) := [
  (236340036, 4), (232108034, 4), (227924744, 4), (223791524, 4), (219697928, 4), (21565326, 3),
  (211653532, 4), (207702806, 4), (203799892, 4), (199947098, 4), (19613318, 3), (19236799, 3),
  (188654382, 4), (184988244, 4), (181365138, 4), (177788668, 4), (174262344, 4), (1707932, 2),
  (16734778, 3), (163972418, 4), (160633324, 4), (157340232, 4), (15409731, 3), (15088728, 3),
  (147729896, 4), (144641402, 4), (141575588, 4), (138555958, 4), (135593296, 4), (132649096, 4),
  (12978326, 3), (126920826, 4), (124138816, 4), (121373192, 4), (118702326, 4), (116025554, 4),
  (113403142, 4), (11079613, 3), (108295908, 4), (105835466, 4), (103340344, 4), (100955072, 4),
  (9859694, 3), (96252822, 4), (93957862, 4), (91740586, 4), (89573164, 4), (8738064, 3),
  (8524155, 3), (83137396, 4), (81169168, 4), (7913542, 3), (77184778, 4), (752165, 2),
  (73355596, 4), (71542906, 4), (69687396, 4), (67863996, 4), (6613236, 3), (6437406, 3),
  (62706598, 4), (61077958, 4), (59457174, 4), (57876784, 4), (56355784, 4), (5482308, 3),
  (53379784, 4), (51900864, 4), (50459158, 4), (49191386, 4), (4771817, 3), (46457742, 4),
  (45184774, 4), (43855454, 4), (42626622, 4), (414274679999999, 11), (40155318, 4), (38979276, 4),
  (37907764, 4), (368513800000001, 11), (35736274, 4), (34679706, 4), (336861079999999, 11),
  (32715202, 4), (31703848, 4), (30764656, 4), (298238400000001, 11), (28884664, 4), (28064868, 4),
  (27119564, 4), (26341434, 4), (25513204, 4), (24697662, 4), (239661139999999, 11), (23189902, 4),
  (22438658, 4), (21719246, 4), (210501360000001, 11), (20288536, 4), (19609952, 4), (19014096, 4),
  (184186079999999, 11), (177754700000001, 11), (17145802, 4), (165465059999999, 11), (1596311, 3),
  (15462016, 4), (14923296, 4), (14338974, 4), (138384600000001, 11), (13394152, 4), (12935518, 4),
  (12458686, 4), (119350659999999, 11), (116227959999999, 11), (110719439999999, 11),
  (106918060000001, 11), (103509179999999, 11), (999679000000004, 12), (957679999999993, 12),
  (925300199999998, 12), (888099400000006, 12), (848638600000006, 12), (818156400000007, 12),
  (796748399999997, 12), (752139200000005, 12), (725271200000003, 12), (692216, 3),
  (671633600000001, 12), (647939799999993, 12), (621670599999998, 12), (575398799999995, 12),
  (561226599999995, 12), (532237999999998, 12), (521787599999996, 12), (483095799999996, 12),
  (467049599999998, 12), (465286399999997, 12), (415548599999995, 12), (401047399999996, 12),
  (380607999999993, 12), (377362599999993, 12), (347258799999996, 12), (338371599999999, 12),
  (310096999999994, 12), (301409199999995, 12), (276280799999993, 12), (265586800000005, 12),
  (258994399999996, 12), (223915999999997, 12), (215925399999993, 12), (213503800000006, 12),
  (191045400000003, 12), (166718200000003, 12), (166259000000005, 12), (162941200000001, 12),
  (148829400000002, 12), (141645999999993, 12), (123535399999993, 12), (122329800000007, 12),
  (89473399999988, 12), (801962000000058, 13), (775457999999926, 13), (591056000000099, 13),
  (833509999999951, 13), (522906000000075, 13), (363979999999865, 13), (406558000000077, 13),
  (420003999999899, 13), (196630000000005, 13), (197153999999864, 13), (-838539999999921, 14),
  (-692799999989802, 15), (854800000000978, 15), (323219999999856, 14), (-389040000000386, 14),
  (-525880000001052, 14), (-249052000000083, 13), (-226837999999989, 13), (-264286000000138, 13),
  (-34997000000003, 12), (-370216000000073, 13), (-43430400000012, 12), (-582390000000014, 13),
  (-688034000000043, 13), (-569245999999985, 13), (-578583999999973, 13), (-773097999999882, 13),
  (-732793999999994, 13), (-810738000000129, 13), (-874530000000086, 13), (-650254000000132, 13),
  (-57296399999992, 12), (-962746000000043, 13), (-10325, 2), (-96081600000005, 12),
  (-915542000000132, 13), (-102465200000006, 12), (-107688599999994, 12), (-101458000000013, 12),
  (-109715800000005, 12)]

/-- `BIAS_DATA[12]`, precision 16 (src/constants.rs:3453-3654). -/
def bias16 : List (ℤ × ℕ) := [
  (472700, 1), (464233584, 4), (455857074, 4), (44757152, 3), (439388416, 4), (431309514, 4),
  (4233003, 2), (41540407, 3), (407596348, 4), (39988206, 3), (392265144, 4), (384732096, 4),
  (37729795, 3), (36997268, 3), (362726448, 4), (35558665, 3), (348530248, 4), (341574472, 4),
  (334705204, 4), (327935742, 4), (321270194, 4), (314694182, 4), (308176136, 4), (301786968, 4),
  (295468908, 4), (289228544, 4), (28312271, 3), (277070924, 4), (271140326, 4), (26526692, 3),
  (259486336, 4), (253837826, 4), (248235998, 4), (242722974, 4), (237322572, 4), (232014976, 4),
  (226742796, 4), (221636336, 4), (21656515, 3), (211617362, 4), (206699368, 4), (201894424, 4),
  (197173358, 4), (192563744, 4), (187959638, 4), (18352197, 3), (179085738, 4), (17474391, 3),
  (17052918, 3), (166372236, 4), (162284602, 4), (158233474, 4), (154286974, 4), (150430284, 4),
  (146676278, 4), (142974588, 4), (139352882, 4), (135785402, 4), (132346032, 4), (128821578, 4),
  (125480728, 4), (12219231, 3), (118980072, 4), (115872626, 4), (112799072, 4), (109735048, 4),
  (106785186, 4), (103924876, 4), (101052556, 4), (9825766, 3), (95625444, 4), (92942222, 4),
  (90382352, 4), (8784848, 3), (85332644, 4), (83017776, 4), (805830859999999, 11),
  (782294579999999, 11), (759911319999999, 11), (736690779999999, 11), (7161217, 3),
  (695753080000001, 11), (6736212, 3), (654821220000001, 11), (634306839999999, 11),
  (615628719999999, 11), (597515419999999, 11), (579175719999999, 11), (562132019999999, 11),
  (545166, 2), (528761040000001, 11), (511809479999999, 11), (4957288, 3), (47984246, 4),
  (466217559999999, 11), (451205900000001, 11), (436468539999999, 11), (422077720000001, 11),
  (408267259999999, 11), (395719519999999, 11), (384215779999999, 11), (36993328, 4),
  (358301180000001, 11), (34738964, 4), (333866639999999, 11), (323355559999999, 11), (3117799, 3),
  (3008111, 3), (290969140000001, 11), (281486499999999, 11), (271946119999999, 11), (2624742, 3),
  (253246979999999, 11), (24447886, 4), (23701868, 4), (227245259999999, 11),
  (219619260000001, 11), (211790419999999, 11), (20232972, 4), (196976819999999, 11),
  (188558979999999, 11), (18332824, 4), (173391200000001, 11), (168254920000001, 11),
  (160457980000001, 11), (155611240000001, 11), (14913064, 4), (142171960000001, 11),
  (137122899999999, 11), (13221324, 4), (12647892, 4), (119623920000001, 11), (11438474, 4),
  (108867240000001, 11), (107360380000001, 11), (102311660000001, 11), (959036400000012, 12),
  (927433199999999, 12), (906792799999996, 12), (853433599999989, 12), (841873800000001, 12),
  (7911054, 4), (756899999999994, 12), (704343200000003, 12), (672495599999995, 12),
  (622790399999998, 12), (611254799999995, 12), (567283200000005, 12), (519406599999988, 12),
  (519188400000014, 12), (495312800000014, 12), (451350799999986, 12), (443973399999988, 12),
  (431882199999993, 12), (392027000000002, 12), (380924200000009, 12), (345128999999986, 12),
  (298901400000002, 12), (287771999999997, 12), (272625, 3), (247253000000026, 12),
  (222490600000019, 12), (223590000000026, 12), (196407599999977, 12), (176425999999978, 12),
  (134725199999986, 12), (1324804, 4), (110445599999977, 12), (867939999999944, 13),
  (567038000000175, 13), (64915399999998, 12), (383726000000024, 13), (371606000000029, 13),
  (46170999999973, 12), (491716000000015, 13), (153362000000197, 13), (671639999997569, 14),
  (-348185999999987, 13), (-394476000000141, 13), (126830000000191, 13), (-123331999999937, 13),
  (-506565999999875, 13), (-599538000000175, 13), (-651054000000004, 13), (-707576000000117, 13),
  (-106325200000021, 12), (-126852200000023, 12), (-110227599999984, 12), (-132885999999999, 12),
  (-113897200000007, 12), (-142713800000027, 12), (-151145399999979, 12), (-150799200000009, 12),
  (-177756200000003, 12), (-156036399999983, 12), (-182735199999996, 12), (-177259399999981, 12),
  (-198663600000029, 12), (-174577600000019, 12), (-19384580000001, 11)]

/-- `BIAS_DATA[13]`, precision 17 (src/constants.rs:3656-3858). -/
def bias17 : List (ℤ × ℕ) := [
  (945410, 1), (92848811, 3), (91174019, 3), (89517558, 3), (878799705, 4), (862627565, 4),
  (846635125, 4), (830837435, 4), (815217865, 4), (79977272, 3), (784559465, 4), (76950219, 3),
  (75465432, 3), (73994152, 3), (7254671, 2), (711152345, 4), (697056765, 4), (68314937, 3),
  (669442705, 4), (65591255, 3), (642529485, 4), (62938016, 3), (616368225, 4), (60355592, 3),
  (59092789, 3), (57850568, 3), (56624518, 3), (55417343, 3), (542311415, 4), (53067387, 3),
  (51903526, 3), (50774649, 3), (496576415, 4), (4856105, 2), (474757575, 4), (46410159, 3),
  (45364852, 3), (44327053, 3), (433184005, 4), (423256165, 4), (413484595, 4), (403836265, 4),
  (3943677, 2), (38509502, 3), (37594035, 3), (36695939, 3), (358186895, 4), (34955691, 3),
  (341158095, 4), (33293949, 3), (324650775, 4), (316576715, 4), (308772585, 4), (3009378, 2),
  (293513695, 4), (285941365, 4), (27872115, 3), (271687465, 4), (26477076, 3), (25774541, 3),
  (251065375, 4), (244525135, 4), (238155125, 4), (231740655, 4), (225552685, 4), (219602065, 4),
  (213763555, 4), (207851925, 4), (20211517, 3), (196570725, 4), (191416865, 4), (18579737, 3),
  (180813955, 4), (17578995, 3), (1707344, 2), (16608335, 3), (16119911, 3), (15651266, 3),
  (15194583, 3), (147490495, 4), (143434835, 4), (13925639, 3), (13504509, 3), (130993885, 4),
  (126912855, 4), (12328018, 3), (119690345, 4), (115965145, 4), (112456355, 4), (109176575, 4),
  (105809785, 4), (102778605, 4), (992658100000001, 11), (9605538, 3), (930042950000003, 11),
  (898997850000003, 11), (872873249999998, 11), (84483235, 4), (817531050000002, 11),
  (789898700000002, 11), (762979100000003, 11), (741376199999999, 11), (714992300000001, 11),
  (692112650000001, 11), (66771545, 4), (644328000000003, 11), (627823450000002, 11),
  (601420049999998, 11), (579120299999998, 11), (560578450000001, 11), (543848800000001, 11),
  (52342255, 4), (50596825, 4), (488743349999998, 11), (4682935, 3), (449631099999999, 11),
  (432252250000002, 11), (419142499999999, 11), (402124200000003, 11), (390064799999999, 11),
  (376284250000003, 11), (360998050000001, 11), (350229599999997, 11), (336384250000003, 11),
  (320654849999998, 11), (307970000000001, 11), (297142300000001, 11), (286780349999998, 11),
  (272708100000001, 11), (263074900000001, 11), (24966165, 4), (2440902, 3), (235619150000002, 11),
  (223558199999999, 11), (212054149999999, 11), (201225449999998, 11), (193335600000003, 11),
  (182093099999998, 11), (176154800000001, 11), (166309350000002, 11), (157884600000002, 11),
  (150948149999999, 11), (14273345, 4), (137956150000001, 11), (130668099999998, 11),
  (121263449999999, 11), (108417300000001, 11), (112416450000001, 11), (106069949999999, 11),
  (100748849999998, 11), (941194499999983, 12), (879880500000028, 12), (836007500000007, 12),
  (782802000000025, 12), (748385499999975, 12), (647991500000004, 12), (626730500000005, 12),
  (570776000000013, 12), (484000500000024, 12), (51398550000001, 11), (418985499999952, 12),
  (386996999999974, 12), (370026500000036, 12), (355496999999974, 12), (356731499999994, 12),
  (25592200000002, 11), (259094000000041, 12), (205434499999974, 12), (165374500000034, 12),
  (197347500000033, 12), (95718499999959, 12), (676165000000037, 13), (546970000000438, 13),
  (317395000000251, 13), (-158784999999916, 13), (842500000004657, 14), (-263754999999655, 13),
  (-118425500000012, 12), (-666629999999423, 13), (-429745000000112, 13), (-107364999999991, 12),
  (-189839000000036, 12), (-162611499999999, 12), (-164964999999967, 12), (-189079999999958, 12),
  (-223931499999948, 12), (-235329999999958, 12), (-269639500000048, 12), (-249087999999989, 12),
  (-206475499999942, 12), (-28304449999996, 11), (-290667000000016, 12), (-304561499999953, 12),
  (-336784499999951, 12), (-380386500000022, 12), (-283280499999993, 12), (-364533000000054, 12),
  (-389059499999974, 12), (-364454000000027, 12), (-415748000000021, 12), (-417155000000028, 12)]

/-- `BIAS_DATA[14]`, precision 18 (src/constants.rs:3860-4061). -/
def bias18 : List (ℤ × ℕ) := [
  (1890830, 1), (185696913, 3), (182348774, 3), (179035946, 3), (175762762, 3), (172526444, 3),
  (169329754, 3), (166166099, 3), (163043269, 3), (15995891, 2), (156907912, 3), (153906845, 3),
  (150924199, 3), (147996568, 3), (145093457, 3), (142239233, 3), (139421475, 3), (13663227, 2),
  (133889588, 3), (1311742, 1), (128511619, 3), (125868621, 3), (123265385, 3), (120721061, 3),
  (118181769, 3), (115709456, 3), (113252446, 3), (110840198, 3), (108465099, 3), (106126164, 3),
  (103823469, 3), (101556618, 3), (99308004, 3), (97124508, 3), (94937803, 3), (92833731, 3),
  (90745061, 3), (88677627, 3), (8661747, 2), (84650442, 3), (82697833, 3), (80769132, 3),
  (78879629, 3), (77014432, 3), (75215626, 3), (73384587, 3), (71652482, 3), (6989593, 2),
  (68209301, 3), (66553669, 3), (64921981, 3), (63310323, 3), (61742115, 3), (60205018, 3),
  (58698658, 3), (57190657, 3), (55760865, 3), (54331169, 3), (52908167, 3), (51550273, 3),
  (50225254, 3), (48922421, 3), (47614533, 3), (46362049, 3), (45098569, 3), (43926083, 3),
  (4273603, 2), (41593473, 3), (4042526, 2), (39316237, 3), (38243651, 3), (37170617, 3),
  (36114609, 3), (3508419, 2), (34117233, 3), (33206509, 3), (32231505, 3), (31318728, 3),
  (30403404, 3), (295400550000001, 10), (28679236, 3), (27825862, 3), (26965216, 3), (26179148, 3),
  (2546208, 2), (24645952, 3), (23922523, 3), (23198144, 3), (22529128, 3), (217624179999999, 10),
  (21134779, 3), (20459117, 3), (19840818, 3), (1918704, 2), (186363689999999, 10), (17982831, 3),
  (174397389999999, 10), (16874547, 3), (163582169999999, 10), (15835684, 3), (15352914, 3),
  (14823681, 3), (14329313, 3), (13816897, 3), (13342874, 3), (12880882, 3), (12491648, 3),
  (12021254, 3), (11625392, 3), (112937610000001, 10), (10813697, 3), (10456209, 3), (10099074, 3),
  (975539000000001, 11), (939318500000006, 11), (904757900000003, 11), (865798499999999, 11),
  (839585900000005, 11), (80330, 1), (773695900000003, 11), (743059699999995, 11),
  (725847699999996, 11), (692458200000005, 11), (669129399999999, 11), (635792500000005, 11),
  (620205700000003, 11), (592119700000004, 11), (562828399999999, 11), (540496799999999, 11),
  (522671100000001, 11), (499075600000005, 11), (479977399999998, 11), (462293099999998, 11),
  (4472478, 3), (417178700000001, 11), (395746299999999, 11), (386895200000005, 11),
  (369114300000004, 11), (347463100000005, 11), (334167200000002, 11), (310914000000001, 11),
  (307197400000005, 11), (279640399999998, 11), (275617799999996, 11), (261146999999997, 11),
  (247193000000005, 11), (238226399999997, 11), (220922400000005, 11), (214228399999999, 11),
  (201396100000001, 11), (191118999999994, 11), (181827099999995, 11), (166847900000005, 11),
  (151965800000005, 11), (146967599999998, 11), (136713800000004, 11), (124852899999998, 11),
  (118123600000003, 11), (102271900000004, 11), (108820700000005, 11), (95903600000008, 11),
  (876095999999903, 12), (791183999999892, 12), (703337000000058, 12), (731949999999953, 12),
  (58686400000006, 11), (526024999999907, 12), (323004999999888, 12), (320448000000091, 12),
  (340672999999952, 12), (309638999999966, 12), (216601999999955, 12), (102922999999952, 12),
  (192399999999907, 13), (-114000000059605, 15), (-326240000000689, 13), (-893179999999702, 13),
  (-153497999999905, 12), (-642970000000205, 13), (-143695999999996, 12), (-259497999999905, 12),
  (-253017999999924, 12), (-213948000000091, 12), (-397590000000084, 12), (-434006000000052, 12),
  (-403475000000093, 12), (-297958000000101, 12), (-404317000000039, 12), (-528898999999976, 12),
  (-506621000000043, 12), (-513205000000075, 12), (-479351000000024, 12), (-596139999999898, 12),
  (-527016999999993, 12), (-664681000000099, 12), (-680306000000099, 12), (-704050000000047, 12),
  (-850486000000034, 12), (-75743200000003, 11), (-713308999999892, 12)]

/-- `RAW_ESTIMATE_DATA` as decimals, indexed by `precision - 4`. -/
def rawDec : List (List (ℤ × ℕ)) := [raw4, raw5, raw6, raw7, raw8, raw9, raw10, raw11, raw12, raw13, raw14, raw15, raw16, raw17, raw18]

/-- `BIAS_DATA` as decimals, indexed by `precision - 4`. -/
def biasDec : List (List (ℤ × ℕ)) := [bias4, bias5, bias6, bias7, bias8, bias9, bias10, bias11, bias12, bias13, bias14, bias15, bias16, bias17, bias18]

/-- `RAW_ESTIMATE_DATA` (src/constants.rs:2-1169). -/
def RAW_ESTIMATE_DATA : List (List F64) := rawDec.map (·.map fun d => F64.ofDec d.1 d.2)

/-- `BIAS_DATA` (src/constants.rs:1172-4062). -/
def BIAS_DATA : List (List F64) := biasDec.map (·.map fun d => F64.ofDec d.1 d.2)

end Constants
end HLL

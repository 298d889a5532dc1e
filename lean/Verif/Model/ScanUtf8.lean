import Verif.Model.Scan

/-!
The tables of the UTF-8 standard scanner, copied from c/src/scanner_utf8.c. The table of transitions at the end of
the input (`_StdTok_eof_trans`) is left out: `eof` is a null pointer that `p` never is.
-/

namespace Ferret.Scan.Utf8
set_option maxRecDepth 100000

/-- _StdTok_actions, scanner_utf8.c 25–39. -/
def actions : List Nat := [0, 1, 0, 1, 1, 1, 2, 1, 3, 1, 4, 1, 5, 1, 18, 1, 19, 1, 21, 1, 22, 1, 23, 1,
  24, 1, 25, 1, 26, 1, 27, 1, 28, 1, 29, 1, 30, 1, 31, 1, 32, 1, 33, 1, 34, 1, 35, 1,
  36, 1, 37, 1, 38, 1, 39, 2, 1, 20, 2, 5, 6, 2, 5, 7, 2, 5, 8, 2, 5, 9, 2, 5,
  10, 2, 5, 11, 2, 5, 12, 2, 5, 13, 2, 5, 14, 2, 5, 15, 2, 5, 16, 2, 5, 17, 3, 5,
  1, 13]

/-- Part of _StdTok_key_offsets, scanner_utf8.c 41–217. -/
def keyOffsets0 : List Nat := [0, 0, 0, 14, 28, 43, 57, 69, 75, 85, 86, 92, 107, 164, 185, 206, 233, 254, 256, 278, 300, 322, 344, 366,
  388, 410, 432, 454, 511, 514, 556, 562, 562, 564, 566, 575, 582, 590, 591, 593, 595, 599, 604, 613, 617, 623, 634, 636,
  638, 640, 645, 672, 676, 686, 701, 715, 733, 746, 762, 770, 786, 799, 820, 828, 842, 851, 865, 876, 888, 898, 907, 916,
  918, 921, 942, 948, 949, 955, 963, 1012, 1017, 1023, 1027, 1032, 1034, 1036, 1038, 1045, 1053, 1060, 1063, 1067, 1071, 1073, 1075, 1079,
  1083, 1087, 1093, 1101, 1105, 1111, 1113, 1115, 1117, 1123, 1127, 1131, 1133, 1135, 1139, 1142, 1146, 1148, 1152, 1156, 1166, 1171, 1185, 1201,
  1203, 1205, 1221, 1226, 1228, 1230, 1232, 1236, 1240, 1242, 1246, 1250, 1260, 1270, 1271, 1282, 1290, 1293, 1296, 1300, 1304, 1306, 1309, 1311,
  1311, 1314, 1316, 1341, 1343, 1349, 1354, 1356, 1360, 1364, 1366, 1371, 1373, 1377, 1379, 1381, 1383, 1386, 1388, 1409, 1411, 1413, 1415, 1426,
  1432, 1434, 1436, 1438, 1440, 1444, 1448, 1450, 1452, 1456, 1458, 1466, 1474, 1491, 1501, 1505, 1507, 1509, 1513, 1515, 1519, 1521, 1525, 1530,
  1532, 1541, 1545, 1555, 1561, 1563, 1565, 1579, 1580, 1590, 1591, 1599, 1606, 1608, 1611, 1613, 1615, 1617, 1620, 1623, 1626, 1628, 1632, 1659,
  1660, 1667, 1670, 1676, 1676, 1678, 1680, 1689, 1696, 1704, 1705, 1707, 1709, 1713, 1718, 1727, 1731, 1737, 1748, 1750, 1752, 1754, 1759, 1786,
  1790, 1800, 1815, 1829, 1847, 1860, 1876, 1884, 1900, 1913, 1934, 1942, 1956, 1965, 1979, 1990, 2002, 2012, 2021, 2030, 2032, 2035, 2056, 2062,
  2063, 2069, 2077, 2126, 2131, 2137, 2141, 2146, 2148, 2150, 2152, 2159, 2167, 2174, 2177, 2181, 2185, 2187, 2189, 2193, 2197, 2201, 2207, 2215,
  2219, 2225, 2227, 2229, 2231, 2237, 2241, 2245, 2247, 2249, 2253, 2256, 2260, 2262, 2266, 2270, 2280, 2285, 2299, 2315, 2317, 2319, 2335, 2340,
  2342, 2344, 2346, 2350, 2354, 2356, 2360, 2364, 2374, 2384, 2385, 2396, 2404, 2407, 2410, 2414, 2418, 2420, 2423, 2425, 2425, 2428, 2430, 2455,
  2457, 2463, 2468, 2470, 2474, 2478, 2480, 2485, 2487, 2491, 2493, 2495, 2497, 2500, 2502, 2523, 2525, 2527, 2529, 2540, 2546, 2548, 2550, 2552,
  2554, 2558, 2562, 2564, 2566, 2570, 2572, 2580, 2588, 2605, 2615, 2619, 2621, 2623, 2627, 2629, 2633, 2635, 2639, 2644, 2646, 2655, 2659, 2669,
  2675, 2677, 2679, 2693, 2694, 2704, 2705, 2713, 2720, 2722, 2725, 2727, 2729, 2731, 2734, 2737, 2740, 2742, 2746, 2749, 2755, 2755, 2757, 2759,
  2768, 2775, 2783, 2784, 2786, 2788, 2792, 2797, 2806, 2810, 2816, 2827, 2829, 2831, 2833, 2838, 2865, 2869, 2879, 2894, 2908, 2926, 2939, 2955,
  2963, 2979, 2992, 3013, 3021, 3035, 3044, 3058, 3069, 3081, 3091, 3100, 3109, 3111, 3114, 3135, 3141, 3142, 3148, 3156, 3205, 3210, 3216, 3220,
  3225, 3227, 3229, 3231, 3238, 3246, 3253, 3256, 3260, 3264, 3266, 3268, 3272, 3276, 3280, 3286, 3294, 3298, 3304, 3306, 3308, 3310, 3316, 3320,
  3324, 3326, 3328, 3332, 3335, 3339, 3341, 3345, 3349, 3359, 3364, 3378, 3394, 3396, 3398, 3414, 3419, 3421, 3423, 3425]

/-- Part of _StdTok_key_offsets, scanner_utf8.c 41–217. -/
def keyOffsets1 : List Nat := [3429, 3433, 3435, 3439, 3443, 3453, 3463, 3464, 3475, 3483, 3486, 3489, 3493, 3497, 3499, 3502, 3504, 3504, 3507, 3509, 3534, 3536, 3542, 3547,
  3549, 3553, 3557, 3559, 3564, 3566, 3570, 3572, 3574, 3576, 3579, 3581, 3602, 3604, 3606, 3608, 3619, 3625, 3627, 3629, 3631, 3633, 3637, 3641,
  3643, 3645, 3649, 3651, 3659, 3667, 3684, 3694, 3698, 3700, 3702, 3706, 3708, 3712, 3714, 3718, 3723, 3725, 3734, 3738, 3748, 3754, 3756, 3758,
  3772, 3773, 3783, 3784, 3792, 3799, 3801, 3804, 3806, 3808, 3810, 3813, 3816, 3819, 3821, 3825, 3888, 3891, 3931, 3937, 3937, 3939, 3941, 3950,
  3957, 3965, 3966, 3968, 3970, 3974, 3979, 3988, 3992, 3998, 4009, 4011, 4013, 4015, 4020, 4047, 4051, 4061, 4076, 4090, 4108, 4121, 4137, 4145,
  4161, 4174, 4195, 4203, 4217, 4226, 4240, 4251, 4263, 4273, 4282, 4291, 4293, 4296, 4317, 4323, 4324, 4330, 4338, 4387, 4392, 4398, 4402, 4407,
  4409, 4411, 4413, 4420, 4428, 4435, 4438, 4442, 4446, 4448, 4450, 4454, 4458, 4462, 4468, 4476, 4480, 4486, 4488, 4490, 4492, 4498, 4502, 4506,
  4508, 4510, 4514, 4517, 4521, 4523, 4527, 4531, 4541, 4546, 4560, 4576, 4578, 4580, 4596, 4601, 4603, 4605, 4607, 4611, 4615, 4617, 4621, 4625,
  4635, 4645, 4646, 4657, 4665, 4668, 4671, 4675, 4679, 4681, 4684, 4686, 4686, 4689, 4691, 4716, 4718, 4724, 4729, 4731, 4735, 4739, 4741, 4746,
  4748, 4752, 4754, 4756, 4758, 4761, 4763, 4784, 4786, 4788, 4790, 4801, 4807, 4809, 4811, 4813, 4815, 4819, 4823, 4825, 4827, 4831, 4833, 4841,
  4849, 4866, 4876, 4880, 4882, 4884, 4888, 4890, 4894, 4896, 4900, 4905, 4907, 4916, 4920, 4930, 4936, 4938, 4940, 4954, 4955, 4965, 4966, 4974,
  4981, 4983, 4986, 4988, 4990, 4992, 4995, 4998, 5001, 5003, 5007, 5010, 5016, 5016, 5018, 5020, 5029, 5036, 5044, 5045, 5047, 5049, 5053, 5058,
  5067, 5071, 5077, 5088, 5090, 5092, 5094, 5099, 5126, 5130, 5140, 5155, 5169, 5187, 5200, 5216, 5224, 5240, 5253, 5274, 5282, 5296, 5305, 5319,
  5330, 5342, 5352, 5361, 5370, 5372, 5375, 5396, 5402, 5403, 5409, 5417, 5466, 5471, 5477, 5481, 5486, 5488, 5490, 5492, 5499, 5507, 5514, 5517,
  5521, 5525, 5527, 5529, 5533, 5537, 5541, 5547, 5555, 5559, 5565, 5567, 5569, 5571, 5577, 5581, 5585, 5587, 5589, 5593, 5596, 5600, 5602, 5606,
  5610, 5620, 5625, 5639, 5655, 5657, 5659, 5675, 5680, 5682, 5684, 5686, 5690, 5694, 5696, 5700, 5704, 5714, 5724, 5725, 5736, 5744, 5747, 5750,
  5754, 5758, 5760, 5763, 5765, 5765, 5768, 5770, 5795, 5797, 5803, 5808, 5810, 5814, 5818, 5820, 5825, 5827, 5831, 5833, 5835, 5837, 5840, 5842,
  5863, 5865, 5867, 5869, 5880, 5886, 5888, 5890, 5892, 5894, 5898, 5902, 5904, 5906, 5910, 5912, 5920, 5928, 5945, 5955, 5959, 5961, 5963, 5967,
  5969, 5973, 5975, 5979, 5984, 5986, 5995, 5999, 6009, 6015, 6017, 6019, 6033, 6034, 6044, 6045, 6053, 6060, 6062, 6065, 6067, 6069, 6071, 6074,
  6077, 6080, 6082, 6086, 6089, 6095, 6095, 6097, 6099, 6108, 6115, 6123, 6124, 6126, 6128, 6132, 6137, 6146, 6150, 6156, 6167, 6169, 6171, 6173,
  6178, 6205, 6209, 6219, 6234, 6248, 6266, 6279, 6295, 6303, 6319, 6332, 6353, 6361, 6375, 6384, 6398, 6409, 6421, 6431]

/-- Part of _StdTok_key_offsets, scanner_utf8.c 41–217. -/
def keyOffsets2 : List Nat := [6440, 6449, 6451, 6454, 6475, 6481, 6482, 6488, 6496, 6545, 6550, 6556, 6560, 6565, 6567, 6569, 6571, 6578, 6586, 6593, 6596, 6600, 6604, 6606,
  6608, 6612, 6616, 6620, 6626, 6634, 6638, 6644, 6646, 6648, 6650, 6656, 6660, 6664, 6666, 6668, 6672, 6675, 6679, 6681, 6685, 6689, 6699, 6704,
  6718, 6734, 6736, 6738, 6754, 6759, 6761, 6763, 6765, 6769, 6773, 6775, 6779, 6783, 6793, 6803, 6804, 6815, 6823, 6826, 6829, 6833, 6837, 6839,
  6842, 6844, 6844, 6847, 6849, 6874, 6876, 6882, 6887, 6889, 6893, 6897, 6899, 6904, 6906, 6910, 6912, 6914, 6916, 6919, 6921, 6942, 6944, 6946,
  6948, 6959, 6965, 6967, 6969, 6971, 6973, 6977, 6981, 6983, 6985, 6989, 6991, 6999, 7007, 7024, 7034, 7038, 7040, 7042, 7046, 7048, 7052, 7054,
  7058, 7063, 7065, 7074, 7078, 7088, 7094, 7096, 7098, 7112, 7113, 7123, 7124, 7132, 7139, 7141, 7144, 7146, 7148, 7150, 7153, 7156, 7159, 7161,
  7165, 7166, 7179, 7183, 7193, 7208, 7222, 7240, 7253, 7269, 7277, 7293, 7306, 7327, 7335, 7349, 7358, 7372, 7383, 7395, 7405, 7414, 7423, 7425,
  7428, 7449, 7455, 7456, 7462, 7470, 7475, 7481, 7485, 7490, 7492, 7494, 7496, 7498, 7505, 7513, 7520, 7523, 7527, 7531, 7533, 7535, 7535, 7539,
  7543, 7547, 7553, 7561, 7565, 7571, 7573, 7575, 7577, 7583, 7587, 7591, 7593, 7595, 7599, 7602, 7606, 7608, 7612, 7614, 7618, 7628, 7633, 7647,
  7649, 7651, 7667, 7672, 7674, 7676, 7678, 7682, 7686, 7688, 7692, 7696, 7706, 7716, 7717, 7725, 7728, 7731, 7735, 7739, 7741, 7743, 7745, 7747,
  7753, 7758, 7760, 7764, 7768, 7770, 7775, 7777, 7781, 7783, 7785, 7787, 7789, 7791, 7793, 7795, 7806, 7812, 7814, 7816, 7818, 7820, 7822, 7826,
  7830, 7832, 7834, 7838, 7840, 7848, 7865, 7875, 7879, 7881, 7883, 7887, 7889, 7893, 7895, 7899, 7904, 7906, 7915, 7919, 7929, 7935, 7937, 7939,
  7953, 7954, 7964, 7965, 7973, 7980, 7982, 7985, 7987, 7989, 7991, 7994, 7997, 7997, 8000, 8002, 8006, 8006, 8064, 8078, 8092, 8102, 8118, 8134,
  8150, 8209, 8231, 8234, 8257, 8280, 8303, 8326, 8350, 8373, 8396, 8419, 8477, 8535, 8579, 8600, 8608, 8667, 8728, 8783, 8840, 8882, 8939, 8994,
  9034, 9055, 9077, 9099, 9121, 9143, 9165, 9187, 9209, 9231, 9232, 9293, 9309, 9364, 9420, 9467, 9507, 9509, 9570, 9617, 9659, 9722, 9784, 9846,
  9907, 9920, 9982, 10044, 10106, 10168, 10230, 10233, 10281, 10287, 10287, 10289, 10291, 10300, 10307, 10315, 10316, 10318, 10320, 10324, 10329, 10338, 10342, 10348,
  10359, 10361, 10363, 10365, 10370, 10397, 10446, 10462, 10473, 10476, 10476, 10479, 10504, 10507, 10528]

/-- _StdTok_key_offsets, scanner_utf8.c 41–217. -/
def keyOffsets : List Nat := keyOffsets0 ++ (keyOffsets1 ++ (keyOffsets2))

/-- Part of _StdTok_trans_keys, scanner_utf8.c 219–1538. -/
def transKeys0 : List Nat := [33, 46, 61, 64, 35, 39, 42, 43, 45, 57, 63, 90, 94, 126, 33, 45, 61, 63, 35, 39, 42, 43, 47, 57,
  65, 90, 94, 126, 33, 45, 61, 63, 91, 35, 39, 42, 43, 47, 57, 65, 90, 94, 126, 33, 45, 61, 63, 35,
  39, 42, 43, 47, 57, 65, 90, 94, 126, 92, 93, 1, 8, 11, 12, 14, 31, 33, 90, 94, 127, 1, 9, 11,
  12, 14, 127, 34, 92, 1, 8, 11, 12, 14, 31, 33, 127, 64, 1, 9, 11, 12, 14, 127, 33, 45, 47, 61,
  63, 35, 39, 42, 43, 48, 57, 65, 90, 94, 126, 33, 45, 46, 47, 61, 63, 64, 194, 195, 198, 199, 203, 205,
  206, 207, 210, 212, 213, 214, 215, 216, 217, 219, 220, 221, 222, 223, 224, 225, 226, 227, 228, 233, 234, 237, 239, 240,
  35, 39, 42, 43, 48, 57, 65, 90, 94, 96, 97, 122, 123, 126, 196, 202, 208, 218, 229, 236, 33, 45, 46, 47,
  61, 63, 64, 35, 39, 42, 43, 48, 57, 65, 90, 94, 96, 97, 122, 123, 126, 33, 45, 46, 47, 61, 63, 64,
  35, 39, 42, 43, 48, 57, 65, 90, 94, 96, 97, 122, 123, 126, 33, 45, 47, 61, 63, 98, 99, 101, 103, 105,
  109, 110, 111, 35, 39, 42, 43, 48, 57, 65, 90, 94, 96, 97, 122, 123, 126, 33, 45, 46, 47, 61, 63, 64,
  35, 39, 42, 43, 48, 57, 65, 90, 94, 96, 97, 122, 123, 126, 48, 57, 33, 45, 46, 47, 61, 63, 64, 105,
  35, 39, 42, 43, 48, 57, 65, 90, 94, 96, 97, 122, 123, 126, 33, 45, 46, 47, 61, 63, 64, 111, 35, 39,
  42, 43, 48, 57, 65, 90, 94, 96, 97, 122, 123, 126, 33, 45, 46, 47, 61, 63, 64, 100, 35, 39, 42, 43,
  48, 57, 65, 90, 94, 96, 97, 122, 123, 126, 33, 45, 46, 47, 61, 63, 64, 111, 35, 39, 42, 43, 48, 57,
  65, 90, 94, 96, 97, 122, 123, 126, 33, 45, 46, 47, 61, 63, 64, 110, 35, 39, 42, 43, 48, 57, 65, 90,
  94, 96, 97, 122, 123, 126, 33, 45, 46, 47, 61, 63, 64, 111, 35, 39, 42, 43, 48, 57, 65, 90, 94, 96,
  97, 122, 123, 126, 33, 45, 46, 47, 61, 63, 64, 105, 35, 39, 42, 43, 48, 57, 65, 90, 94, 96, 97, 122,
  123, 126, 33, 45, 46, 47, 61, 63, 64, 101, 35, 39, 42, 43, 48, 57, 65, 90, 94, 96, 97, 122, 123, 126,
  33, 45, 46, 47, 61, 63, 64, 114, 35, 39, 42, 43, 48, 57, 65, 90, 94, 96, 97, 122, 123, 126, 33, 46,
  61, 63, 64, 194, 195, 198, 199, 203, 205, 206, 207, 210, 212, 213, 214, 215, 216, 217, 219, 220, 221, 222, 223, 224,
  225, 226, 227, 228, 233, 234, 237, 239, 240, 35, 39, 42, 43, 45, 47, 48, 57, 65, 90, 94]

/-- Part of _StdTok_trans_keys, scanner_utf8.c 219–1538. -/
def transKeys1 : List Nat := [96, 97, 122, 123, 126, 196, 202, 208, 218, 229, 236, 170, 181, 186, 194, 195, 198, 199, 203, 205, 206, 207, 210, 212,
  213, 214, 215, 216, 217, 219, 220, 221, 222, 223, 224, 225, 226, 227, 228, 233, 234, 237, 239, 240, 48, 57, 65, 90,
  97, 122, 196, 202, 208, 218, 229, 236, 128, 150, 152, 182, 184, 255, 192, 255, 0, 127, 173, 130, 133, 146, 159, 165,
  171, 175, 255, 133, 176, 180, 182, 183, 186, 189, 134, 140, 136, 138, 142, 161, 163, 255, 182, 130, 137, 164, 176, 151,
  152, 154, 160, 190, 136, 175, 192, 255, 135, 129, 130, 132, 133, 144, 170, 176, 178, 144, 154, 161, 191, 128, 151, 153,
  158, 174, 255, 148, 157, 160, 169, 172, 176, 185, 189, 190, 192, 255, 144, 191, 141, 255, 178, 255, 186, 138, 170, 180,
  181, 164, 165, 166, 167, 168, 169, 170, 171, 172, 173, 174, 175, 176, 177, 178, 179, 180, 181, 182, 183, 184, 185, 186,
  187, 188, 189, 190, 129, 185, 189, 255, 141, 143, 145, 151, 164, 176, 179, 186, 192, 255, 178, 129, 131, 133, 140, 143,
  144, 147, 168, 170, 176, 182, 185, 189, 255, 141, 158, 133, 134, 137, 138, 143, 150, 152, 155, 164, 175, 178, 255, 129,
  131, 133, 138, 143, 144, 147, 168, 170, 176, 178, 179, 181, 182, 184, 185, 190, 255, 157, 131, 134, 137, 138, 141, 144,
  146, 152, 159, 175, 182, 255, 129, 131, 133, 141, 143, 145, 147, 168, 170, 176, 178, 179, 181, 185, 189, 255, 134, 138,
  141, 143, 145, 159, 164, 255, 129, 131, 133, 140, 143, 144, 147, 168, 170, 176, 178, 179, 181, 185, 189, 191, 177, 128,
  132, 135, 136, 139, 140, 150, 151, 156, 157, 159, 163, 156, 130, 131, 133, 138, 142, 144, 146, 149, 153, 154, 158, 159,
  163, 164, 168, 170, 174, 185, 190, 191, 144, 151, 128, 130, 134, 136, 138, 140, 129, 131, 133, 140, 142, 144, 146, 168,
  170, 179, 181, 185, 189, 255, 133, 137, 151, 141, 148, 154, 159, 164, 255, 130, 131, 133, 140, 142, 144, 146, 168, 170,
  179, 181, 185, 189, 191, 158, 128, 132, 134, 136, 138, 140, 149, 150, 160, 163, 130, 131, 133, 140, 142, 144, 146, 168,
  170, 185, 189, 255, 133, 137, 141, 150, 152, 159, 164, 185, 192, 255, 189, 130, 131, 133, 150, 154, 177, 179, 187, 150,
  128, 134, 143, 148, 152, 159, 178, 179, 129, 186, 141, 128, 134, 132, 138, 141, 165, 167, 129, 130, 135, 136, 148, 151,
  153, 159, 161, 163, 170, 171, 173, 185, 187, 189, 134, 141, 128, 132, 156, 157, 128, 128, 135, 137, 172, 177, 191, 128,
  129, 136, 139, 144, 151, 153, 188, 128, 129, 130, 131, 133, 134, 135, 137, 138, 139, 140, 141, 142, 143, 144, 153, 154,
  155, 156, 157, 158, 159, 160, 161, 162, 164, 165, 166, 167, 168, 172, 173, 174, 176, 177, 180, 181]

/-- Part of _StdTok_trans_keys, scanner_utf8.c 219–1538. -/
def transKeys2 : List Nat := [182, 184, 188, 189, 190, 191, 132, 136, 145, 152, 185, 187, 184, 128, 182, 187, 191, 144, 162, 165, 168, 174, 255, 135,
  141, 143, 159, 187, 134, 143, 189, 255, 154, 158, 163, 167, 186, 255, 137, 151, 153, 142, 143, 158, 159, 137, 177, 142,
  143, 182, 183, 191, 255, 128, 130, 133, 136, 150, 152, 255, 145, 150, 151, 155, 158, 160, 255, 128, 143, 160, 255, 181,
  255, 129, 255, 173, 174, 183, 255, 129, 154, 160, 255, 171, 173, 177, 255, 128, 140, 142, 147, 160, 179, 128, 147, 160,
  172, 174, 176, 178, 179, 128, 179, 182, 255, 137, 150, 152, 155, 157, 255, 160, 255, 184, 255, 128, 170, 128, 156, 160,
  171, 176, 184, 144, 173, 176, 180, 128, 169, 176, 255, 138, 255, 128, 155, 128, 179, 181, 255, 132, 140, 255, 128, 169,
  174, 175, 128, 181, 141, 143, 154, 189, 150, 151, 158, 159, 152, 154, 156, 158, 134, 135, 142, 143, 190, 255, 190, 128,
  180, 182, 188, 130, 132, 134, 140, 144, 147, 150, 155, 160, 172, 178, 180, 182, 188, 129, 130, 132, 133, 134, 146, 147,
  176, 177, 178, 179, 180, 181, 182, 183, 184, 177, 191, 144, 148, 130, 135, 149, 164, 166, 168, 138, 147, 153, 157, 170,
  173, 175, 185, 188, 191, 142, 133, 137, 160, 255, 137, 255, 182, 255, 170, 255, 128, 174, 176, 255, 159, 176, 190, 255,
  165, 255, 128, 165, 176, 255, 166, 174, 176, 255, 128, 150, 160, 166, 168, 174, 176, 182, 184, 190, 128, 134, 136, 142,
  144, 150, 152, 158, 160, 191, 175, 128, 129, 130, 131, 132, 133, 134, 135, 144, 145, 255, 133, 135, 161, 169, 177, 181,
  184, 188, 160, 151, 156, 187, 192, 255, 133, 173, 177, 255, 143, 159, 184, 255, 176, 191, 182, 183, 184, 182, 255, 191,
  192, 255, 132, 255, 128, 146, 148, 152, 153, 154, 156, 157, 158, 159, 160, 161, 162, 163, 164, 165, 168, 169, 176, 129,
  145, 149, 151, 177, 255, 141, 255, 141, 143, 160, 169, 172, 255, 191, 128, 159, 162, 174, 128, 151, 151, 159, 162, 255,
  137, 138, 141, 255, 187, 255, 130, 134, 139, 168, 255, 128, 179, 138, 170, 176, 255, 147, 255, 128, 182, 128, 141, 158,
  159, 255, 164, 255, 164, 168, 169, 171, 172, 173, 174, 175, 180, 181, 182, 183, 185, 186, 187, 188, 189, 190, 191, 165,
  179, 174, 175, 171, 175, 154, 255, 190, 128, 134, 147, 151, 157, 168, 170, 182, 184, 188, 128, 129, 131, 132, 134, 255,
  147, 255, 190, 255, 144, 255, 144, 145, 136, 175, 188, 255, 176, 180, 182, 255, 189, 255, 161, 186, 129, 154, 166, 255,
  191, 255, 130, 135, 138, 143, 146, 151, 154, 156, 144, 146, 157, 160, 170, 175, 161, 169, 128, 129, 130, 131, 133, 138,
  139, 140, 141, 142, 143, 144, 145, 146, 160, 164, 168, 128, 139, 141, 166, 168, 186, 188, 189, 191]

/-- Part of _StdTok_trans_keys, scanner_utf8.c 219–1538. -/
def transKeys3 : List Nat := [255, 142, 143, 158, 255, 187, 255, 128, 180, 128, 156, 160, 255, 145, 255, 128, 158, 176, 255, 139, 255, 128, 157, 160,
  255, 144, 132, 135, 150, 255, 158, 255, 136, 188, 191, 128, 133, 138, 181, 183, 184, 128, 149, 160, 185, 128, 131, 133,
  134, 140, 147, 149, 151, 153, 179, 128, 141, 144, 145, 129, 140, 175, 255, 163, 255, 144, 145, 146, 147, 148, 149, 154,
  155, 156, 157, 158, 159, 150, 153, 149, 157, 173, 186, 188, 160, 161, 163, 164, 167, 168, 132, 134, 149, 157, 186, 139,
  140, 191, 255, 134, 128, 132, 138, 144, 146, 255, 166, 167, 129, 155, 187, 149, 181, 143, 175, 137, 169, 131, 140, 255,
  128, 129, 255, 155, 156, 255, 151, 255, 160, 168, 161, 167, 33, 45, 47, 61, 63, 98, 99, 101, 103, 105, 109, 110,
  111, 35, 39, 42, 43, 48, 57, 65, 90, 94, 96, 97, 122, 123, 126, 47, 95, 44, 58, 64, 90, 97, 122, 170,
  181, 186, 128, 150, 152, 182, 184, 255, 192, 255, 128, 255, 173, 130, 133, 146, 159, 165, 171, 175, 255, 133, 176, 180,
  182, 183, 186, 189, 134, 140, 136, 138, 142, 161, 163, 255, 182, 130, 137, 164, 176, 151, 152, 154, 160, 190, 136, 175,
  192, 255, 135, 129, 130, 132, 133, 144, 170, 176, 178, 144, 154, 161, 191, 128, 151, 153, 158, 174, 255, 148, 157, 160,
  169, 172, 176, 185, 189, 190, 192, 255, 144, 191, 141, 255, 178, 255, 186, 138, 170, 180, 181, 164, 165, 166, 167, 168,
  169, 170, 171, 172, 173, 174, 175, 176, 177, 178, 179, 180, 181, 182, 183, 184, 185, 186, 187, 188, 189, 190, 129, 185,
  189, 255, 141, 143, 145, 151, 164, 176, 179, 186, 192, 255, 178, 129, 131, 133, 140, 143, 144, 147, 168, 170, 176, 182,
  185, 189, 255, 141, 158, 133, 134, 137, 138, 143, 150, 152, 155, 164, 175, 178, 255, 129, 131, 133, 138, 143, 144, 147,
  168, 170, 176, 178, 179, 181, 182, 184, 185, 190, 255, 157, 131, 134, 137, 138, 141, 144, 146, 152, 159, 175, 182, 255,
  129, 131, 133, 141, 143, 145, 147, 168, 170, 176, 178, 179, 181, 185, 189, 255, 134, 138, 141, 143, 145, 159, 164, 255,
  129, 131, 133, 140, 143, 144, 147, 168, 170, 176, 178, 179, 181, 185, 189, 191, 177, 128, 132, 135, 136, 139, 140, 150,
  151, 156, 157, 159, 163, 156, 130, 131, 133, 138, 142, 144, 146, 149, 153, 154, 158, 159, 163, 164, 168, 170, 174, 185,
  190, 191, 144, 151, 128, 130, 134, 136, 138, 140, 129, 131, 133, 140, 142, 144, 146, 168, 170, 179, 181, 185, 189, 255,
  133, 137, 151, 141, 148, 154, 159, 164, 255, 130, 131, 133, 140, 142, 144, 146, 168, 170, 179, 181, 185, 189, 191, 158,
  128, 132, 134, 136, 138, 140, 149, 150, 160, 163, 130, 131, 133, 140, 142, 144, 146, 168, 170, 185]

/-- Part of _StdTok_trans_keys, scanner_utf8.c 219–1538. -/
def transKeys4 : List Nat := [189, 255, 133, 137, 141, 150, 152, 159, 164, 185, 192, 255, 189, 130, 131, 133, 150, 154, 177, 179, 187, 150, 128, 134,
  143, 148, 152, 159, 178, 179, 129, 186, 141, 128, 134, 132, 138, 141, 165, 167, 129, 130, 135, 136, 148, 151, 153, 159,
  161, 163, 170, 171, 173, 185, 187, 189, 134, 141, 128, 132, 156, 157, 128, 128, 135, 137, 172, 177, 191, 128, 129, 136,
  139, 144, 151, 153, 188, 128, 129, 130, 131, 133, 134, 135, 137, 138, 139, 140, 141, 142, 143, 144, 153, 154, 155, 156,
  157, 158, 159, 160, 161, 162, 164, 165, 166, 167, 168, 172, 173, 174, 176, 177, 180, 181, 182, 184, 188, 189, 190, 191,
  132, 136, 145, 152, 185, 187, 184, 128, 182, 187, 191, 144, 162, 165, 168, 174, 255, 135, 141, 143, 159, 187, 134, 143,
  189, 255, 154, 158, 163, 167, 186, 255, 137, 151, 153, 142, 143, 158, 159, 137, 177, 142, 143, 182, 183, 191, 255, 128,
  130, 133, 136, 150, 152, 255, 145, 150, 151, 155, 158, 160, 255, 128, 143, 160, 255, 181, 255, 129, 255, 173, 174, 183,
  255, 129, 154, 160, 255, 171, 173, 177, 255, 128, 140, 142, 147, 160, 179, 128, 147, 160, 172, 174, 176, 178, 179, 128,
  179, 182, 255, 137, 150, 152, 155, 157, 255, 160, 255, 184, 255, 128, 170, 128, 156, 160, 171, 176, 184, 144, 173, 176,
  180, 128, 169, 176, 255, 138, 255, 128, 155, 128, 179, 181, 255, 132, 140, 255, 128, 169, 174, 175, 128, 181, 141, 143,
  154, 189, 150, 151, 158, 159, 152, 154, 156, 158, 134, 135, 142, 143, 190, 255, 190, 128, 180, 182, 188, 130, 132, 134,
  140, 144, 147, 150, 155, 160, 172, 178, 180, 182, 188, 129, 130, 132, 133, 134, 146, 147, 176, 177, 178, 179, 180, 181,
  182, 183, 184, 177, 191, 144, 148, 130, 135, 149, 164, 166, 168, 138, 147, 153, 157, 170, 173, 175, 185, 188, 191, 142,
  133, 137, 160, 255, 137, 255, 182, 255, 170, 255, 128, 174, 176, 255, 159, 176, 190, 255, 165, 255, 128, 165, 176, 255,
  166, 174, 176, 255, 128, 150, 160, 166, 168, 174, 176, 182, 184, 190, 128, 134, 136, 142, 144, 150, 152, 158, 160, 191,
  175, 128, 129, 130, 131, 132, 133, 134, 135, 144, 145, 255, 133, 135, 161, 169, 177, 181, 184, 188, 160, 151, 156, 187,
  192, 255, 133, 173, 177, 255, 143, 159, 184, 255, 176, 191, 182, 183, 184, 182, 255, 191, 192, 255, 132, 255, 128, 146,
  148, 152, 153, 154, 156, 157, 158, 159, 160, 161, 162, 163, 164, 165, 168, 169, 176, 129, 145, 149, 151, 177, 255, 141,
  255, 141, 143, 160, 169, 172, 255, 191, 128, 159, 162, 174, 128, 151, 151, 159, 162, 255, 137, 138, 141, 255, 187, 255,
  130, 134, 139, 168, 255, 128, 179, 138, 170, 176, 255, 147, 255, 128, 182, 128, 141, 158, 159, 255]

/-- Part of _StdTok_trans_keys, scanner_utf8.c 219–1538. -/
def transKeys5 : List Nat := [164, 255, 164, 168, 169, 171, 172, 173, 174, 175, 180, 181, 182, 183, 185, 186, 187, 188, 189, 190, 191, 165, 179, 174,
  175, 171, 175, 154, 255, 190, 128, 134, 147, 151, 157, 168, 170, 182, 184, 188, 128, 129, 131, 132, 134, 255, 147, 255,
  190, 255, 144, 255, 144, 145, 136, 175, 188, 255, 176, 180, 182, 255, 189, 255, 161, 186, 129, 154, 166, 255, 191, 255,
  130, 135, 138, 143, 146, 151, 154, 156, 144, 146, 157, 160, 170, 175, 161, 169, 128, 129, 130, 131, 133, 138, 139, 140,
  141, 142, 143, 144, 145, 146, 160, 164, 168, 128, 139, 141, 166, 168, 186, 188, 189, 191, 255, 142, 143, 158, 255, 187,
  255, 128, 180, 128, 156, 160, 255, 145, 255, 128, 158, 176, 255, 139, 255, 128, 157, 160, 255, 144, 132, 135, 150, 255,
  158, 255, 136, 188, 191, 128, 133, 138, 181, 183, 184, 128, 149, 160, 185, 128, 131, 133, 134, 140, 147, 149, 151, 153,
  179, 128, 141, 144, 145, 129, 140, 175, 255, 163, 255, 144, 145, 146, 147, 148, 149, 154, 155, 156, 157, 158, 159, 150,
  153, 149, 157, 173, 186, 188, 160, 161, 163, 164, 167, 168, 132, 134, 149, 157, 186, 139, 140, 191, 255, 134, 128, 132,
  138, 144, 146, 255, 166, 167, 129, 155, 187, 149, 181, 143, 175, 137, 169, 131, 140, 255, 128, 129, 255, 155, 156, 255,
  151, 255, 160, 168, 161, 167, 170, 181, 186, 128, 150, 152, 182, 184, 255, 192, 255, 128, 255, 173, 130, 133, 146, 159,
  165, 171, 175, 255, 133, 176, 180, 182, 183, 186, 189, 134, 140, 136, 138, 142, 161, 163, 255, 182, 130, 137, 164, 176,
  151, 152, 154, 160, 190, 136, 175, 192, 255, 135, 129, 130, 132, 133, 144, 170, 176, 178, 144, 154, 161, 191, 128, 151,
  153, 158, 174, 255, 148, 157, 160, 169, 172, 176, 185, 189, 190, 192, 255, 144, 191, 141, 255, 178, 255, 186, 138, 170,
  180, 181, 164, 165, 166, 167, 168, 169, 170, 171, 172, 173, 174, 175, 176, 177, 178, 179, 180, 181, 182, 183, 184, 185,
  186, 187, 188, 189, 190, 129, 185, 189, 255, 141, 143, 145, 151, 164, 176, 179, 186, 192, 255, 178, 129, 131, 133, 140,
  143, 144, 147, 168, 170, 176, 182, 185, 189, 255, 141, 158, 133, 134, 137, 138, 143, 150, 152, 155, 164, 175, 178, 255,
  129, 131, 133, 138, 143, 144, 147, 168, 170, 176, 178, 179, 181, 182, 184, 185, 190, 255, 157, 131, 134, 137, 138, 141,
  144, 146, 152, 159, 175, 182, 255, 129, 131, 133, 141, 143, 145, 147, 168, 170, 176, 178, 179, 181, 185, 189, 255, 134,
  138, 141, 143, 145, 159, 164, 255, 129, 131, 133, 140, 143, 144, 147, 168, 170, 176, 178, 179, 181, 185, 189, 191, 177,
  128, 132, 135, 136, 139, 140, 150, 151, 156, 157, 159, 163, 156, 130, 131, 133, 138, 142, 144, 146]

/-- Part of _StdTok_trans_keys, scanner_utf8.c 219–1538. -/
def transKeys6 : List Nat := [149, 153, 154, 158, 159, 163, 164, 168, 170, 174, 185, 190, 191, 144, 151, 128, 130, 134, 136, 138, 140, 129, 131, 133,
  140, 142, 144, 146, 168, 170, 179, 181, 185, 189, 255, 133, 137, 151, 141, 148, 154, 159, 164, 255, 130, 131, 133, 140,
  142, 144, 146, 168, 170, 179, 181, 185, 189, 191, 158, 128, 132, 134, 136, 138, 140, 149, 150, 160, 163, 130, 131, 133,
  140, 142, 144, 146, 168, 170, 185, 189, 255, 133, 137, 141, 150, 152, 159, 164, 185, 192, 255, 189, 130, 131, 133, 150,
  154, 177, 179, 187, 150, 128, 134, 143, 148, 152, 159, 178, 179, 129, 186, 141, 128, 134, 132, 138, 141, 165, 167, 129,
  130, 135, 136, 148, 151, 153, 159, 161, 163, 170, 171, 173, 185, 187, 189, 134, 141, 128, 132, 156, 157, 128, 128, 135,
  137, 172, 177, 191, 128, 129, 136, 139, 144, 151, 153, 188, 128, 129, 130, 131, 133, 134, 135, 137, 138, 139, 140, 141,
  142, 143, 144, 153, 154, 155, 156, 157, 158, 159, 160, 161, 162, 164, 165, 166, 167, 168, 172, 173, 174, 176, 177, 180,
  181, 182, 184, 188, 189, 190, 191, 132, 136, 145, 152, 185, 187, 184, 128, 182, 187, 191, 144, 162, 165, 168, 174, 255,
  135, 141, 143, 159, 187, 134, 143, 189, 255, 154, 158, 163, 167, 186, 255, 137, 151, 153, 142, 143, 158, 159, 137, 177,
  142, 143, 182, 183, 191, 255, 128, 130, 133, 136, 150, 152, 255, 145, 150, 151, 155, 158, 160, 255, 128, 143, 160, 255,
  181, 255, 129, 255, 173, 174, 183, 255, 129, 154, 160, 255, 171, 173, 177, 255, 128, 140, 142, 147, 160, 179, 128, 147,
  160, 172, 174, 176, 178, 179, 128, 179, 182, 255, 137, 150, 152, 155, 157, 255, 160, 255, 184, 255, 128, 170, 128, 156,
  160, 171, 176, 184, 144, 173, 176, 180, 128, 169, 176, 255, 138, 255, 128, 155, 128, 179, 181, 255, 132, 140, 255, 128,
  169, 174, 175, 128, 181, 141, 143, 154, 189, 150, 151, 158, 159, 152, 154, 156, 158, 134, 135, 142, 143, 190, 255, 190,
  128, 180, 182, 188, 130, 132, 134, 140, 144, 147, 150, 155, 160, 172, 178, 180, 182, 188, 129, 130, 132, 133, 134, 146,
  147, 176, 177, 178, 179, 180, 181, 182, 183, 184, 177, 191, 144, 148, 130, 135, 149, 164, 166, 168, 138, 147, 153, 157,
  170, 173, 175, 185, 188, 191, 142, 133, 137, 160, 255, 137, 255, 182, 255, 170, 255, 128, 174, 176, 255, 159, 176, 190,
  255, 165, 255, 128, 165, 176, 255, 166, 174, 176, 255, 128, 150, 160, 166, 168, 174, 176, 182, 184, 190, 128, 134, 136,
  142, 144, 150, 152, 158, 160, 191, 175, 128, 129, 130, 131, 132, 133, 134, 135, 144, 145, 255, 133, 135, 161, 169, 177,
  181, 184, 188, 160, 151, 156, 187, 192, 255, 133, 173, 177, 255, 143, 159, 184, 255, 176, 191, 182]

/-- Part of _StdTok_trans_keys, scanner_utf8.c 219–1538. -/
def transKeys7 : List Nat := [183, 184, 182, 255, 191, 192, 255, 132, 255, 128, 146, 148, 152, 153, 154, 156, 157, 158, 159, 160, 161, 162, 163, 164,
  165, 168, 169, 176, 129, 145, 149, 151, 177, 255, 141, 255, 141, 143, 160, 169, 172, 255, 191, 128, 159, 162, 174, 128,
  151, 151, 159, 162, 255, 137, 138, 141, 255, 187, 255, 130, 134, 139, 168, 255, 128, 179, 138, 170, 176, 255, 147, 255,
  128, 182, 128, 141, 158, 159, 255, 164, 255, 164, 168, 169, 171, 172, 173, 174, 175, 180, 181, 182, 183, 185, 186, 187,
  188, 189, 190, 191, 165, 179, 174, 175, 171, 175, 154, 255, 190, 128, 134, 147, 151, 157, 168, 170, 182, 184, 188, 128,
  129, 131, 132, 134, 255, 147, 255, 190, 255, 144, 255, 144, 145, 136, 175, 188, 255, 176, 180, 182, 255, 189, 255, 161,
  186, 129, 154, 166, 255, 191, 255, 130, 135, 138, 143, 146, 151, 154, 156, 144, 146, 157, 160, 170, 175, 161, 169, 128,
  129, 130, 131, 133, 138, 139, 140, 141, 142, 143, 144, 145, 146, 160, 164, 168, 128, 139, 141, 166, 168, 186, 188, 189,
  191, 255, 142, 143, 158, 255, 187, 255, 128, 180, 128, 156, 160, 255, 145, 255, 128, 158, 176, 255, 139, 255, 128, 157,
  160, 255, 144, 132, 135, 150, 255, 158, 255, 136, 188, 191, 128, 133, 138, 181, 183, 184, 128, 149, 160, 185, 128, 131,
  133, 134, 140, 147, 149, 151, 153, 179, 128, 141, 144, 145, 129, 140, 175, 255, 163, 255, 144, 145, 146, 147, 148, 149,
  154, 155, 156, 157, 158, 159, 150, 153, 149, 157, 173, 186, 188, 160, 161, 163, 164, 167, 168, 132, 134, 149, 157, 186,
  139, 140, 191, 255, 134, 128, 132, 138, 144, 146, 255, 166, 167, 129, 155, 187, 149, 181, 143, 175, 137, 169, 131, 140,
  255, 128, 129, 255, 155, 156, 255, 151, 255, 160, 168, 161, 167, 33, 45, 47, 61, 63, 98, 99, 101, 103, 105, 109,
  110, 111, 194, 195, 198, 199, 203, 205, 206, 207, 210, 212, 213, 214, 215, 216, 217, 219, 220, 221, 222, 223, 224, 225,
  226, 227, 228, 233, 234, 237, 239, 240, 35, 39, 42, 43, 48, 57, 65, 90, 94, 96, 97, 122, 123, 126, 196, 202,
  208, 218, 229, 236, 170, 181, 186, 194, 195, 198, 199, 203, 205, 206, 207, 210, 212, 213, 214, 215, 216, 217, 219, 220,
  221, 222, 223, 224, 225, 226, 227, 228, 233, 234, 237, 239, 240, 65, 90, 97, 122, 196, 202, 208, 218, 229, 236, 128,
  150, 152, 182, 184, 255, 192, 255, 128, 255, 173, 130, 133, 146, 159, 165, 171, 175, 255, 133, 176, 180, 182, 183, 186,
  189, 134, 140, 136, 138, 142, 161, 163, 255, 182, 130, 137, 164, 176, 151, 152, 154, 160, 190, 136, 175, 192, 255, 135,
  129, 130, 132, 133, 144, 170, 176, 178, 144, 154, 161, 191, 128, 151, 153, 158, 174, 255, 148, 157]

/-- Part of _StdTok_trans_keys, scanner_utf8.c 219–1538. -/
def transKeys8 : List Nat := [160, 169, 172, 176, 185, 189, 190, 192, 255, 144, 191, 141, 255, 178, 255, 186, 138, 170, 180, 181, 164, 165, 166, 167,
  168, 169, 170, 171, 172, 173, 174, 175, 176, 177, 178, 179, 180, 181, 182, 183, 184, 185, 186, 187, 188, 189, 190, 129,
  185, 189, 255, 141, 143, 145, 151, 164, 176, 179, 186, 192, 255, 178, 129, 131, 133, 140, 143, 144, 147, 168, 170, 176,
  182, 185, 189, 255, 141, 158, 133, 134, 137, 138, 143, 150, 152, 155, 164, 175, 178, 255, 129, 131, 133, 138, 143, 144,
  147, 168, 170, 176, 178, 179, 181, 182, 184, 185, 190, 255, 157, 131, 134, 137, 138, 141, 144, 146, 152, 159, 175, 182,
  255, 129, 131, 133, 141, 143, 145, 147, 168, 170, 176, 178, 179, 181, 185, 189, 255, 134, 138, 141, 143, 145, 159, 164,
  255, 129, 131, 133, 140, 143, 144, 147, 168, 170, 176, 178, 179, 181, 185, 189, 191, 177, 128, 132, 135, 136, 139, 140,
  150, 151, 156, 157, 159, 163, 156, 130, 131, 133, 138, 142, 144, 146, 149, 153, 154, 158, 159, 163, 164, 168, 170, 174,
  185, 190, 191, 144, 151, 128, 130, 134, 136, 138, 140, 129, 131, 133, 140, 142, 144, 146, 168, 170, 179, 181, 185, 189,
  255, 133, 137, 151, 141, 148, 154, 159, 164, 255, 130, 131, 133, 140, 142, 144, 146, 168, 170, 179, 181, 185, 189, 191,
  158, 128, 132, 134, 136, 138, 140, 149, 150, 160, 163, 130, 131, 133, 140, 142, 144, 146, 168, 170, 185, 189, 255, 133,
  137, 141, 150, 152, 159, 164, 185, 192, 255, 189, 130, 131, 133, 150, 154, 177, 179, 187, 150, 128, 134, 143, 148, 152,
  159, 178, 179, 129, 186, 141, 128, 134, 132, 138, 141, 165, 167, 129, 130, 135, 136, 148, 151, 153, 159, 161, 163, 170,
  171, 173, 185, 187, 189, 134, 141, 128, 132, 156, 157, 128, 128, 135, 137, 172, 177, 191, 128, 129, 136, 139, 144, 151,
  153, 188, 128, 129, 130, 131, 133, 134, 135, 137, 138, 139, 140, 141, 142, 143, 144, 153, 154, 155, 156, 157, 158, 159,
  160, 161, 162, 164, 165, 166, 167, 168, 172, 173, 174, 176, 177, 180, 181, 182, 184, 188, 189, 190, 191, 132, 136, 145,
  152, 185, 187, 184, 128, 182, 187, 191, 144, 162, 165, 168, 174, 255, 135, 141, 143, 159, 187, 134, 143, 189, 255, 154,
  158, 163, 167, 186, 255, 137, 151, 153, 142, 143, 158, 159, 137, 177, 142, 143, 182, 183, 191, 255, 128, 130, 133, 136,
  150, 152, 255, 145, 150, 151, 155, 158, 160, 255, 128, 143, 160, 255, 181, 255, 129, 255, 173, 174, 183, 255, 129, 154,
  160, 255, 171, 173, 177, 255, 128, 140, 142, 147, 160, 179, 128, 147, 160, 172, 174, 176, 178, 179, 128, 179, 182, 255,
  137, 150, 152, 155, 157, 255, 160, 255, 184, 255, 128, 170, 128, 156, 160, 171, 176, 184, 144, 173]

/-- Part of _StdTok_trans_keys, scanner_utf8.c 219–1538. -/
def transKeys9 : List Nat := [176, 180, 128, 169, 176, 255, 138, 255, 128, 155, 128, 179, 181, 255, 132, 140, 255, 128, 169, 174, 175, 128, 181, 141,
  143, 154, 189, 150, 151, 158, 159, 152, 154, 156, 158, 134, 135, 142, 143, 190, 255, 190, 128, 180, 182, 188, 130, 132,
  134, 140, 144, 147, 150, 155, 160, 172, 178, 180, 182, 188, 129, 130, 132, 133, 134, 146, 147, 176, 177, 178, 179, 180,
  181, 182, 183, 184, 177, 191, 144, 148, 130, 135, 149, 164, 166, 168, 138, 147, 153, 157, 170, 173, 175, 185, 188, 191,
  142, 133, 137, 160, 255, 137, 255, 182, 255, 170, 255, 128, 174, 176, 255, 159, 176, 190, 255, 165, 255, 128, 165, 176,
  255, 166, 174, 176, 255, 128, 150, 160, 166, 168, 174, 176, 182, 184, 190, 128, 134, 136, 142, 144, 150, 152, 158, 160,
  191, 175, 128, 129, 130, 131, 132, 133, 134, 135, 144, 145, 255, 133, 135, 161, 169, 177, 181, 184, 188, 160, 151, 156,
  187, 192, 255, 133, 173, 177, 255, 143, 159, 184, 255, 176, 191, 182, 183, 184, 182, 255, 191, 192, 255, 132, 255, 128,
  146, 148, 152, 153, 154, 156, 157, 158, 159, 160, 161, 162, 163, 164, 165, 168, 169, 176, 129, 145, 149, 151, 177, 255,
  141, 255, 141, 143, 160, 169, 172, 255, 191, 128, 159, 162, 174, 128, 151, 151, 159, 162, 255, 137, 138, 141, 255, 187,
  255, 130, 134, 139, 168, 255, 128, 179, 138, 170, 176, 255, 147, 255, 128, 182, 128, 141, 158, 159, 255, 164, 255, 164,
  168, 169, 171, 172, 173, 174, 175, 180, 181, 182, 183, 185, 186, 187, 188, 189, 190, 191, 165, 179, 174, 175, 171, 175,
  154, 255, 190, 128, 134, 147, 151, 157, 168, 170, 182, 184, 188, 128, 129, 131, 132, 134, 255, 147, 255, 190, 255, 144,
  255, 144, 145, 136, 175, 188, 255, 176, 180, 182, 255, 189, 255, 161, 186, 129, 154, 166, 255, 191, 255, 130, 135, 138,
  143, 146, 151, 154, 156, 144, 146, 157, 160, 170, 175, 161, 169, 128, 129, 130, 131, 133, 138, 139, 140, 141, 142, 143,
  144, 145, 146, 160, 164, 168, 128, 139, 141, 166, 168, 186, 188, 189, 191, 255, 142, 143, 158, 255, 187, 255, 128, 180,
  128, 156, 160, 255, 145, 255, 128, 158, 176, 255, 139, 255, 128, 157, 160, 255, 144, 132, 135, 150, 255, 158, 255, 136,
  188, 191, 128, 133, 138, 181, 183, 184, 128, 149, 160, 185, 128, 131, 133, 134, 140, 147, 149, 151, 153, 179, 128, 141,
  144, 145, 129, 140, 175, 255, 163, 255, 144, 145, 146, 147, 148, 149, 154, 155, 156, 157, 158, 159, 150, 153, 149, 157,
  173, 186, 188, 160, 161, 163, 164, 167, 168, 132, 134, 149, 157, 186, 139, 140, 191, 255, 134, 128, 132, 138, 144, 146,
  255, 166, 167, 129, 155, 187, 149, 181, 143, 175, 137, 169, 131, 140, 255, 128, 129, 255, 155, 156]

/-- Part of _StdTok_trans_keys, scanner_utf8.c 219–1538. -/
def transKeys10 : List Nat := [255, 151, 255, 160, 168, 161, 167, 170, 181, 186, 128, 150, 152, 182, 184, 255, 192, 255, 128, 255, 173, 130, 133, 146,
  159, 165, 171, 175, 255, 133, 176, 180, 182, 183, 186, 189, 134, 140, 136, 138, 142, 161, 163, 255, 182, 130, 137, 164,
  176, 151, 152, 154, 160, 190, 136, 175, 192, 255, 135, 129, 130, 132, 133, 144, 170, 176, 178, 144, 154, 161, 191, 128,
  151, 153, 158, 174, 255, 148, 157, 160, 169, 172, 176, 185, 189, 190, 192, 255, 144, 191, 141, 255, 178, 255, 186, 138,
  170, 180, 181, 164, 165, 166, 167, 168, 169, 170, 171, 172, 173, 174, 175, 176, 177, 178, 179, 180, 181, 182, 183, 184,
  185, 186, 187, 188, 189, 190, 129, 185, 189, 255, 141, 143, 145, 151, 164, 176, 179, 186, 192, 255, 178, 129, 131, 133,
  140, 143, 144, 147, 168, 170, 176, 182, 185, 189, 255, 141, 158, 133, 134, 137, 138, 143, 150, 152, 155, 164, 175, 178,
  255, 129, 131, 133, 138, 143, 144, 147, 168, 170, 176, 178, 179, 181, 182, 184, 185, 190, 255, 157, 131, 134, 137, 138,
  141, 144, 146, 152, 159, 175, 182, 255, 129, 131, 133, 141, 143, 145, 147, 168, 170, 176, 178, 179, 181, 185, 189, 255,
  134, 138, 141, 143, 145, 159, 164, 255, 129, 131, 133, 140, 143, 144, 147, 168, 170, 176, 178, 179, 181, 185, 189, 191,
  177, 128, 132, 135, 136, 139, 140, 150, 151, 156, 157, 159, 163, 156, 130, 131, 133, 138, 142, 144, 146, 149, 153, 154,
  158, 159, 163, 164, 168, 170, 174, 185, 190, 191, 144, 151, 128, 130, 134, 136, 138, 140, 129, 131, 133, 140, 142, 144,
  146, 168, 170, 179, 181, 185, 189, 255, 133, 137, 151, 141, 148, 154, 159, 164, 255, 130, 131, 133, 140, 142, 144, 146,
  168, 170, 179, 181, 185, 189, 191, 158, 128, 132, 134, 136, 138, 140, 149, 150, 160, 163, 130, 131, 133, 140, 142, 144,
  146, 168, 170, 185, 189, 255, 133, 137, 141, 150, 152, 159, 164, 185, 192, 255, 189, 130, 131, 133, 150, 154, 177, 179,
  187, 150, 128, 134, 143, 148, 152, 159, 178, 179, 129, 186, 141, 128, 134, 132, 138, 141, 165, 167, 129, 130, 135, 136,
  148, 151, 153, 159, 161, 163, 170, 171, 173, 185, 187, 189, 134, 141, 128, 132, 156, 157, 128, 128, 135, 137, 172, 177,
  191, 128, 129, 136, 139, 144, 151, 153, 188, 128, 129, 130, 131, 133, 134, 135, 137, 138, 139, 140, 141, 142, 143, 144,
  153, 154, 155, 156, 157, 158, 159, 160, 161, 162, 164, 165, 166, 167, 168, 172, 173, 174, 176, 177, 180, 181, 182, 184,
  188, 189, 190, 191, 132, 136, 145, 152, 185, 187, 184, 128, 182, 187, 191, 144, 162, 165, 168, 174, 255, 135, 141, 143,
  159, 187, 134, 143, 189, 255, 154, 158, 163, 167, 186, 255, 137, 151, 153, 142, 143, 158, 159, 137]

/-- Part of _StdTok_trans_keys, scanner_utf8.c 219–1538. -/
def transKeys11 : List Nat := [177, 142, 143, 182, 183, 191, 255, 128, 130, 133, 136, 150, 152, 255, 145, 150, 151, 155, 158, 160, 255, 128, 143, 160,
  255, 181, 255, 129, 255, 173, 174, 183, 255, 129, 154, 160, 255, 171, 173, 177, 255, 128, 140, 142, 147, 160, 179, 128,
  147, 160, 172, 174, 176, 178, 179, 128, 179, 182, 255, 137, 150, 152, 155, 157, 255, 160, 255, 184, 255, 128, 170, 128,
  156, 160, 171, 176, 184, 144, 173, 176, 180, 128, 169, 176, 255, 138, 255, 128, 155, 128, 179, 181, 255, 132, 140, 255,
  128, 169, 174, 175, 128, 181, 141, 143, 154, 189, 150, 151, 158, 159, 152, 154, 156, 158, 134, 135, 142, 143, 190, 255,
  190, 128, 180, 182, 188, 130, 132, 134, 140, 144, 147, 150, 155, 160, 172, 178, 180, 182, 188, 129, 130, 132, 133, 134,
  146, 147, 176, 177, 178, 179, 180, 181, 182, 183, 184, 177, 191, 144, 148, 130, 135, 149, 164, 166, 168, 138, 147, 153,
  157, 170, 173, 175, 185, 188, 191, 142, 133, 137, 160, 255, 137, 255, 182, 255, 170, 255, 128, 174, 176, 255, 159, 176,
  190, 255, 165, 255, 128, 165, 176, 255, 166, 174, 176, 255, 128, 150, 160, 166, 168, 174, 176, 182, 184, 190, 128, 134,
  136, 142, 144, 150, 152, 158, 160, 191, 175, 128, 129, 130, 131, 132, 133, 134, 135, 144, 145, 255, 133, 135, 161, 169,
  177, 181, 184, 188, 160, 151, 156, 187, 192, 255, 133, 173, 177, 255, 143, 159, 184, 255, 176, 191, 182, 183, 184, 182,
  255, 191, 192, 255, 132, 255, 128, 146, 148, 152, 153, 154, 156, 157, 158, 159, 160, 161, 162, 163, 164, 165, 168, 169,
  176, 129, 145, 149, 151, 177, 255, 141, 255, 141, 143, 160, 169, 172, 255, 191, 128, 159, 162, 174, 128, 151, 151, 159,
  162, 255, 137, 138, 141, 255, 187, 255, 130, 134, 139, 168, 255, 128, 179, 138, 170, 176, 255, 147, 255, 128, 182, 128,
  141, 158, 159, 255, 164, 255, 164, 168, 169, 171, 172, 173, 174, 175, 180, 181, 182, 183, 185, 186, 187, 188, 189, 190,
  191, 165, 179, 174, 175, 171, 175, 154, 255, 190, 128, 134, 147, 151, 157, 168, 170, 182, 184, 188, 128, 129, 131, 132,
  134, 255, 147, 255, 190, 255, 144, 255, 144, 145, 136, 175, 188, 255, 176, 180, 182, 255, 189, 255, 161, 186, 129, 154,
  166, 255, 191, 255, 130, 135, 138, 143, 146, 151, 154, 156, 144, 146, 157, 160, 170, 175, 161, 169, 128, 129, 130, 131,
  133, 138, 139, 140, 141, 142, 143, 144, 145, 146, 160, 164, 168, 128, 139, 141, 166, 168, 186, 188, 189, 191, 255, 142,
  143, 158, 255, 187, 255, 128, 180, 128, 156, 160, 255, 145, 255, 128, 158, 176, 255, 139, 255, 128, 157, 160, 255, 144,
  132, 135, 150, 255, 158, 255, 136, 188, 191, 128, 133, 138, 181, 183, 184, 128, 149, 160, 185, 128]

/-- Part of _StdTok_trans_keys, scanner_utf8.c 219–1538. -/
def transKeys12 : List Nat := [131, 133, 134, 140, 147, 149, 151, 153, 179, 128, 141, 144, 145, 129, 140, 175, 255, 163, 255, 144, 145, 146, 147, 148,
  149, 154, 155, 156, 157, 158, 159, 150, 153, 149, 157, 173, 186, 188, 160, 161, 163, 164, 167, 168, 132, 134, 149, 157,
  186, 139, 140, 191, 255, 134, 128, 132, 138, 144, 146, 255, 166, 167, 129, 155, 187, 149, 181, 143, 175, 137, 169, 131,
  140, 255, 128, 129, 255, 155, 156, 255, 151, 255, 160, 168, 161, 167, 170, 181, 186, 128, 150, 152, 182, 184, 255, 192,
  255, 128, 255, 173, 130, 133, 146, 159, 165, 171, 175, 255, 133, 176, 180, 182, 183, 186, 189, 134, 140, 136, 138, 142,
  161, 163, 255, 182, 130, 137, 164, 176, 151, 152, 154, 160, 190, 136, 175, 192, 255, 135, 129, 130, 132, 133, 144, 170,
  176, 178, 144, 154, 161, 191, 128, 151, 153, 158, 174, 255, 148, 157, 160, 169, 172, 176, 185, 189, 190, 192, 255, 144,
  191, 141, 255, 178, 255, 186, 138, 170, 180, 181, 164, 165, 166, 167, 168, 169, 170, 171, 172, 173, 174, 175, 176, 177,
  178, 179, 180, 181, 182, 183, 184, 185, 186, 187, 188, 189, 190, 129, 185, 189, 255, 141, 143, 145, 151, 164, 176, 179,
  186, 192, 255, 178, 129, 131, 133, 140, 143, 144, 147, 168, 170, 176, 182, 185, 189, 255, 141, 158, 133, 134, 137, 138,
  143, 150, 152, 155, 164, 175, 178, 255, 129, 131, 133, 138, 143, 144, 147, 168, 170, 176, 178, 179, 181, 182, 184, 185,
  190, 255, 157, 131, 134, 137, 138, 141, 144, 146, 152, 159, 175, 182, 255, 129, 131, 133, 141, 143, 145, 147, 168, 170,
  176, 178, 179, 181, 185, 189, 255, 134, 138, 141, 143, 145, 159, 164, 255, 129, 131, 133, 140, 143, 144, 147, 168, 170,
  176, 178, 179, 181, 185, 189, 191, 177, 128, 132, 135, 136, 139, 140, 150, 151, 156, 157, 159, 163, 156, 130, 131, 133,
  138, 142, 144, 146, 149, 153, 154, 158, 159, 163, 164, 168, 170, 174, 185, 190, 191, 144, 151, 128, 130, 134, 136, 138,
  140, 129, 131, 133, 140, 142, 144, 146, 168, 170, 179, 181, 185, 189, 255, 133, 137, 151, 141, 148, 154, 159, 164, 255,
  130, 131, 133, 140, 142, 144, 146, 168, 170, 179, 181, 185, 189, 191, 158, 128, 132, 134, 136, 138, 140, 149, 150, 160,
  163, 130, 131, 133, 140, 142, 144, 146, 168, 170, 185, 189, 255, 133, 137, 141, 150, 152, 159, 164, 185, 192, 255, 189,
  130, 131, 133, 150, 154, 177, 179, 187, 150, 128, 134, 143, 148, 152, 159, 178, 179, 129, 186, 141, 128, 134, 132, 138,
  141, 165, 167, 129, 130, 135, 136, 148, 151, 153, 159, 161, 163, 170, 171, 173, 185, 187, 189, 134, 141, 128, 132, 156,
  157, 128, 128, 135, 137, 172, 177, 191, 128, 129, 136, 139, 144, 151, 153, 188, 128, 129, 130, 131]

/-- Part of _StdTok_trans_keys, scanner_utf8.c 219–1538. -/
def transKeys13 : List Nat := [133, 134, 135, 137, 138, 139, 140, 141, 142, 143, 144, 153, 154, 155, 156, 157, 158, 159, 160, 161, 162, 164, 165, 166,
  167, 168, 172, 173, 174, 176, 177, 180, 181, 182, 184, 188, 189, 190, 191, 132, 136, 145, 152, 185, 187, 184, 128, 182,
  187, 191, 144, 162, 165, 168, 174, 255, 135, 141, 143, 159, 187, 134, 143, 189, 255, 154, 158, 163, 167, 186, 255, 137,
  151, 153, 142, 143, 158, 159, 137, 177, 142, 143, 182, 183, 191, 255, 128, 130, 133, 136, 150, 152, 255, 145, 150, 151,
  155, 158, 160, 255, 128, 143, 160, 255, 181, 255, 129, 255, 173, 174, 183, 255, 129, 154, 160, 255, 171, 173, 177, 255,
  128, 140, 142, 147, 160, 179, 128, 147, 160, 172, 174, 176, 178, 179, 128, 179, 182, 255, 137, 150, 152, 155, 157, 255,
  160, 255, 184, 255, 128, 170, 128, 156, 160, 171, 176, 184, 144, 173, 176, 180, 128, 169, 176, 255, 138, 255, 128, 155,
  128, 179, 181, 255, 132, 140, 255, 128, 169, 174, 175, 128, 181, 141, 143, 154, 189, 150, 151, 158, 159, 152, 154, 156,
  158, 134, 135, 142, 143, 190, 255, 190, 128, 180, 182, 188, 130, 132, 134, 140, 144, 147, 150, 155, 160, 172, 178, 180,
  182, 188, 129, 130, 132, 133, 134, 146, 147, 176, 177, 178, 179, 180, 181, 182, 183, 184, 177, 191, 144, 148, 130, 135,
  149, 164, 166, 168, 138, 147, 153, 157, 170, 173, 175, 185, 188, 191, 142, 133, 137, 160, 255, 137, 255, 182, 255, 170,
  255, 128, 174, 176, 255, 159, 176, 190, 255, 165, 255, 128, 165, 176, 255, 166, 174, 176, 255, 128, 150, 160, 166, 168,
  174, 176, 182, 184, 190, 128, 134, 136, 142, 144, 150, 152, 158, 160, 191, 175, 128, 129, 130, 131, 132, 133, 134, 135,
  144, 145, 255, 133, 135, 161, 169, 177, 181, 184, 188, 160, 151, 156, 187, 192, 255, 133, 173, 177, 255, 143, 159, 184,
  255, 176, 191, 182, 183, 184, 182, 255, 191, 192, 255, 132, 255, 128, 146, 148, 152, 153, 154, 156, 157, 158, 159, 160,
  161, 162, 163, 164, 165, 168, 169, 176, 129, 145, 149, 151, 177, 255, 141, 255, 141, 143, 160, 169, 172, 255, 191, 128,
  159, 162, 174, 128, 151, 151, 159, 162, 255, 137, 138, 141, 255, 187, 255, 130, 134, 139, 168, 255, 128, 179, 138, 170,
  176, 255, 147, 255, 128, 182, 128, 141, 158, 159, 255, 164, 255, 164, 168, 169, 171, 172, 173, 174, 175, 180, 181, 182,
  183, 185, 186, 187, 188, 189, 190, 191, 165, 179, 174, 175, 171, 175, 154, 255, 190, 128, 134, 147, 151, 157, 168, 170,
  182, 184, 188, 128, 129, 131, 132, 134, 255, 147, 255, 190, 255, 144, 255, 144, 145, 136, 175, 188, 255, 176, 180, 182,
  255, 189, 255, 161, 186, 129, 154, 166, 255, 191, 255, 130, 135, 138, 143, 146, 151, 154, 156, 144]

/-- Part of _StdTok_trans_keys, scanner_utf8.c 219–1538. -/
def transKeys14 : List Nat := [146, 157, 160, 170, 175, 161, 169, 128, 129, 130, 131, 133, 138, 139, 140, 141, 142, 143, 144, 145, 146, 160, 164, 168,
  128, 139, 141, 166, 168, 186, 188, 189, 191, 255, 142, 143, 158, 255, 187, 255, 128, 180, 128, 156, 160, 255, 145, 255,
  128, 158, 176, 255, 139, 255, 128, 157, 160, 255, 144, 132, 135, 150, 255, 158, 255, 136, 188, 191, 128, 133, 138, 181,
  183, 184, 128, 149, 160, 185, 128, 131, 133, 134, 140, 147, 149, 151, 153, 179, 128, 141, 144, 145, 129, 140, 175, 255,
  163, 255, 144, 145, 146, 147, 148, 149, 154, 155, 156, 157, 158, 159, 150, 153, 149, 157, 173, 186, 188, 160, 161, 163,
  164, 167, 168, 132, 134, 149, 157, 186, 139, 140, 191, 255, 134, 128, 132, 138, 144, 146, 255, 166, 167, 129, 155, 187,
  149, 181, 143, 175, 137, 169, 131, 140, 255, 128, 129, 255, 155, 156, 255, 151, 255, 160, 168, 161, 167, 47, 45, 47,
  58, 64, 95, 44, 46, 48, 57, 65, 90, 97, 122, 129, 185, 189, 255, 141, 143, 145, 151, 164, 176, 179, 186, 192,
  255, 178, 129, 131, 133, 140, 143, 144, 147, 168, 170, 176, 182, 185, 189, 255, 141, 158, 133, 134, 137, 138, 143, 150,
  152, 155, 164, 175, 178, 255, 129, 131, 133, 138, 143, 144, 147, 168, 170, 176, 178, 179, 181, 182, 184, 185, 190, 255,
  157, 131, 134, 137, 138, 141, 144, 146, 152, 159, 175, 182, 255, 129, 131, 133, 141, 143, 145, 147, 168, 170, 176, 178,
  179, 181, 185, 189, 255, 134, 138, 141, 143, 145, 159, 164, 255, 129, 131, 133, 140, 143, 144, 147, 168, 170, 176, 178,
  179, 181, 185, 189, 191, 177, 128, 132, 135, 136, 139, 140, 150, 151, 156, 157, 159, 163, 156, 130, 131, 133, 138, 142,
  144, 146, 149, 153, 154, 158, 159, 163, 164, 168, 170, 174, 185, 190, 191, 144, 151, 128, 130, 134, 136, 138, 140, 129,
  131, 133, 140, 142, 144, 146, 168, 170, 179, 181, 185, 189, 255, 133, 137, 151, 141, 148, 154, 159, 164, 255, 130, 131,
  133, 140, 142, 144, 146, 168, 170, 179, 181, 185, 189, 191, 158, 128, 132, 134, 136, 138, 140, 149, 150, 160, 163, 130,
  131, 133, 140, 142, 144, 146, 168, 170, 185, 189, 255, 133, 137, 141, 150, 152, 159, 164, 185, 192, 255, 189, 130, 131,
  133, 150, 154, 177, 179, 187, 150, 128, 134, 143, 148, 152, 159, 178, 179, 129, 186, 141, 128, 134, 132, 138, 141, 165,
  167, 129, 130, 135, 136, 148, 151, 153, 159, 161, 163, 170, 171, 173, 185, 187, 189, 134, 141, 128, 132, 156, 157, 128,
  128, 135, 137, 172, 177, 191, 128, 129, 136, 139, 144, 151, 153, 188, 184, 128, 182, 187, 191, 144, 162, 165, 168, 174,
  255, 135, 141, 143, 159, 187, 134, 143, 189, 255, 128, 255, 154, 158, 163, 167, 186, 255, 137, 151]

/-- Part of _StdTok_trans_keys, scanner_utf8.c 219–1538. -/
def transKeys15 : List Nat := [153, 142, 143, 158, 159, 137, 177, 142, 143, 182, 183, 191, 255, 128, 130, 133, 136, 150, 152, 255, 145, 150, 151, 155,
  158, 160, 255, 128, 143, 160, 255, 181, 255, 129, 255, 173, 174, 183, 255, 129, 154, 160, 255, 171, 173, 177, 255, 128,
  140, 142, 147, 160, 179, 128, 147, 160, 172, 174, 176, 178, 179, 128, 179, 182, 255, 137, 150, 152, 155, 157, 255, 160,
  255, 184, 255, 128, 170, 128, 156, 160, 171, 176, 184, 144, 173, 176, 180, 128, 169, 176, 255, 138, 255, 128, 155, 128,
  179, 181, 255, 132, 140, 255, 128, 169, 174, 175, 128, 181, 141, 143, 154, 189, 192, 255, 150, 151, 158, 159, 152, 154,
  156, 158, 134, 135, 142, 143, 190, 255, 190, 128, 180, 182, 188, 130, 132, 134, 140, 144, 147, 150, 155, 160, 172, 178,
  180, 182, 188, 177, 191, 144, 148, 130, 135, 149, 164, 166, 168, 138, 147, 153, 157, 170, 173, 175, 185, 188, 191, 142,
  133, 137, 160, 255, 137, 255, 182, 255, 170, 255, 128, 174, 176, 255, 159, 176, 190, 255, 165, 255, 128, 165, 176, 255,
  166, 174, 176, 255, 128, 150, 160, 166, 168, 174, 176, 182, 184, 190, 128, 134, 136, 142, 144, 150, 152, 158, 160, 191,
  175, 133, 135, 161, 169, 177, 181, 184, 188, 160, 151, 156, 187, 192, 255, 133, 173, 177, 255, 143, 159, 184, 255, 176,
  191, 182, 255, 132, 255, 141, 255, 141, 143, 160, 169, 172, 255, 191, 128, 159, 162, 174, 128, 151, 151, 159, 162, 255,
  137, 138, 141, 255, 187, 255, 130, 134, 139, 168, 255, 128, 179, 138, 170, 176, 255, 147, 255, 128, 182, 128, 141, 164,
  255, 174, 175, 171, 175, 154, 255, 190, 128, 134, 147, 151, 157, 168, 170, 182, 184, 188, 128, 129, 131, 132, 134, 255,
  178, 255, 147, 255, 190, 255, 144, 255, 144, 145, 136, 175, 188, 255, 176, 180, 182, 255, 189, 255, 161, 186, 129, 154,
  166, 255, 191, 255, 130, 135, 138, 143, 146, 151, 154, 156, 128, 129, 130, 131, 133, 138, 139, 140, 141, 142, 143, 144,
  145, 146, 160, 164, 168, 128, 139, 141, 166, 168, 186, 188, 189, 191, 255, 142, 143, 158, 255, 187, 255, 128, 180, 128,
  156, 160, 255, 145, 255, 128, 158, 176, 255, 139, 255, 128, 157, 160, 255, 144, 132, 135, 150, 255, 158, 255, 136, 188,
  191, 128, 133, 138, 181, 183, 184, 128, 149, 160, 185, 128, 131, 133, 134, 140, 147, 149, 151, 153, 179, 128, 141, 144,
  145, 129, 140, 175, 255, 163, 255, 144, 145, 146, 147, 148, 149, 154, 155, 156, 157, 158, 159, 150, 153, 149, 157, 173,
  186, 188, 160, 161, 163, 164, 167, 168, 132, 134, 149, 157, 186, 139, 140, 191, 255, 134, 128, 132, 138, 144, 146, 255,
  166, 167, 129, 155, 187, 149, 181, 143, 175, 137, 169, 131, 140, 255, 128, 129, 255, 155, 156, 255]

/-- Part of _StdTok_trans_keys, scanner_utf8.c 219–1538. -/
def transKeys16 : List Nat := [151, 255, 160, 168, 161, 167, 0, 34, 42, 43, 45, 47, 61, 63, 102, 104, 194, 195, 198, 199, 203, 205, 206, 207,
  210, 212, 213, 214, 215, 216, 217, 219, 220, 221, 222, 223, 224, 225, 226, 227, 228, 233, 234, 237, 239, 240, 33, 39,
  48, 57, 65, 90, 94, 96, 97, 122, 123, 126, 196, 202, 208, 218, 229, 236, 33, 46, 61, 64, 35, 39, 42, 43,
  45, 57, 63, 90, 94, 126, 33, 46, 61, 63, 35, 39, 42, 43, 45, 57, 65, 90, 94, 126, 34, 92, 1, 8,
  11, 12, 14, 31, 33, 127, 33, 46, 61, 64, 35, 39, 42, 43, 45, 47, 48, 57, 63, 90, 94, 126, 33, 46,
  61, 64, 35, 39, 42, 43, 45, 47, 48, 57, 63, 90, 94, 126, 33, 46, 61, 64, 35, 39, 42, 43, 45, 47,
  48, 57, 63, 90, 94, 126, 33, 45, 46, 47, 58, 61, 63, 64, 95, 194, 195, 198, 199, 203, 205, 206, 207, 210,
  212, 213, 214, 215, 216, 217, 219, 220, 221, 222, 223, 224, 225, 226, 227, 228, 233, 234, 237, 239, 240, 35, 39, 42,
  43, 48, 57, 65, 90, 94, 96, 97, 122, 123, 126, 196, 202, 208, 218, 229, 236, 33, 45, 46, 47, 58, 61, 63,
  64, 35, 39, 42, 43, 48, 57, 65, 90, 94, 96, 97, 122, 123, 126, 47, 48, 57, 33, 45, 46, 47, 58, 61,
  63, 64, 122, 35, 39, 42, 43, 48, 57, 65, 90, 94, 96, 97, 121, 123, 126, 33, 45, 46, 47, 58, 61, 63,
  64, 109, 35, 39, 42, 43, 48, 57, 65, 90, 94, 96, 97, 122, 123, 126, 33, 45, 46, 47, 58, 61, 63, 64,
  117, 35, 39, 42, 43, 48, 57, 65, 90, 94, 96, 97, 122, 123, 126, 33, 45, 46, 47, 58, 61, 63, 64, 118,
  35, 39, 42, 43, 48, 57, 65, 90, 94, 96, 97, 122, 123, 126, 33, 45, 46, 47, 58, 61, 63, 64, 102, 116,
  35, 39, 42, 43, 48, 57, 65, 90, 94, 96, 97, 122, 123, 126, 33, 45, 46, 47, 58, 61, 63, 64, 108, 35,
  39, 42, 43, 48, 57, 65, 90, 94, 96, 97, 122, 123, 126, 33, 45, 46, 47, 58, 61, 63, 64, 116, 35, 39,
  42, 43, 48, 57, 65, 90, 94, 96, 97, 122, 123, 126, 33, 45, 46, 47, 58, 61, 63, 64, 103, 35, 39, 42,
  43, 48, 57, 65, 90, 94, 96, 97, 122, 123, 126, 33, 45, 46, 47, 61, 63, 64, 95, 194, 195, 198, 199, 203,
  205, 206, 207, 210, 212, 213, 214, 215, 216, 217, 219, 220, 221, 222, 223, 224, 225, 226, 227, 228, 233, 234, 237, 239,
  240, 35, 39, 42, 43, 48, 57, 65, 90, 94, 96, 97, 122, 123, 126, 196, 202, 208, 218, 229, 236, 33, 45, 46,
  47, 61, 63, 64, 95, 194, 195, 198, 199, 203, 205, 206, 207, 210, 212, 213, 214, 215, 216, 217]

/-- Part of _StdTok_trans_keys, scanner_utf8.c 219–1538. -/
def transKeys17 : List Nat := [219, 220, 221, 222, 223, 224, 225, 226, 227, 228, 233, 234, 237, 239, 240, 35, 39, 42, 43, 48, 57, 65, 90, 94,
  96, 97, 122, 123, 126, 196, 202, 208, 218, 229, 236, 45, 95, 194, 195, 198, 199, 203, 205, 206, 207, 210, 212, 213,
  214, 215, 216, 217, 219, 220, 221, 222, 223, 224, 225, 226, 227, 228, 233, 234, 237, 239, 240, 48, 57, 65, 90, 97,
  122, 196, 202, 208, 218, 229, 236, 33, 45, 46, 47, 61, 63, 64, 35, 39, 42, 43, 48, 57, 65, 90, 94, 96,
  97, 122, 123, 126, 47, 95, 44, 58, 64, 90, 97, 122, 33, 45, 46, 47, 58, 61, 63, 64, 95, 194, 195, 198,
  199, 203, 205, 206, 207, 210, 212, 213, 214, 215, 216, 217, 219, 220, 221, 222, 223, 224, 225, 226, 227, 228, 233, 234,
  237, 239, 240, 35, 39, 42, 43, 48, 57, 65, 90, 94, 96, 97, 122, 123, 126, 196, 202, 208, 218, 229, 236, 33,
  38, 39, 45, 46, 47, 58, 61, 63, 64, 95, 194, 195, 198, 199, 203, 205, 206, 207, 210, 212, 213, 214, 215, 216,
  217, 219, 220, 221, 222, 223, 224, 225, 226, 227, 228, 233, 234, 237, 239, 240, 35, 37, 42, 43, 48, 57, 65, 90,
  94, 96, 97, 122, 123, 126, 196, 202, 208, 218, 229, 236, 33, 46, 61, 63, 64, 194, 195, 198, 199, 203, 205, 206,
  207, 210, 212, 213, 214, 215, 216, 217, 219, 220, 221, 222, 223, 224, 225, 226, 227, 228, 233, 234, 237, 239, 240, 35,
  39, 42, 43, 45, 57, 65, 90, 94, 96, 97, 122, 123, 126, 196, 202, 208, 218, 229, 236, 33, 46, 61, 63, 64,
  194, 195, 198, 199, 203, 205, 206, 207, 210, 212, 213, 214, 215, 216, 217, 219, 220, 221, 222, 223, 224, 225, 226, 227,
  228, 233, 234, 237, 239, 240, 35, 39, 42, 43, 45, 47, 48, 57, 65, 90, 94, 96, 97, 122, 123, 126, 196, 202,
  208, 218, 229, 236, 194, 195, 198, 199, 203, 205, 206, 207, 210, 212, 213, 214, 215, 216, 217, 219, 220, 221, 222, 223,
  224, 225, 226, 227, 228, 233, 234, 237, 239, 240, 48, 57, 65, 90, 97, 122, 196, 202, 208, 218, 229, 236, 33, 46,
  61, 63, 64, 83, 115, 194, 195, 198, 199, 203, 205, 206, 207, 210, 212, 213, 214, 215, 216, 217, 219, 220, 221, 222,
  223, 224, 225, 226, 227, 228, 233, 234, 237, 239, 240, 35, 39, 42, 43, 45, 57, 65, 90, 94, 96, 97, 122, 123,
  126, 196, 202, 208, 218, 229, 236, 33, 46, 61, 63, 64, 194, 195, 198, 199, 203, 205, 206, 207, 210, 212, 213, 214,
  215, 216, 217, 219, 220, 221, 222, 223, 224, 225, 226, 227, 228, 233, 234, 237, 239, 240, 35, 39, 42, 43, 45, 57,
  65, 90, 94, 96, 97, 122, 123, 126, 196, 202, 208, 218, 229, 236, 194, 195, 198, 199, 203, 205]

/-- Part of _StdTok_trans_keys, scanner_utf8.c 219–1538. -/
def transKeys18 : List Nat := [206, 207, 210, 212, 213, 214, 215, 216, 217, 219, 220, 221, 222, 223, 224, 225, 226, 227, 228, 233, 234, 237, 239, 240,
  65, 90, 97, 122, 196, 202, 208, 218, 229, 236, 33, 45, 46, 47, 61, 63, 64, 35, 39, 42, 43, 48, 57, 65,
  90, 94, 96, 97, 122, 123, 126, 33, 45, 46, 47, 61, 63, 64, 105, 35, 39, 42, 43, 48, 57, 65, 90, 94,
  96, 97, 122, 123, 126, 33, 45, 46, 47, 61, 63, 64, 111, 35, 39, 42, 43, 48, 57, 65, 90, 94, 96, 97,
  122, 123, 126, 33, 45, 46, 47, 61, 63, 64, 100, 35, 39, 42, 43, 48, 57, 65, 90, 94, 96, 97, 122, 123,
  126, 33, 45, 46, 47, 61, 63, 64, 111, 35, 39, 42, 43, 48, 57, 65, 90, 94, 96, 97, 122, 123, 126, 33,
  45, 46, 47, 61, 63, 64, 110, 35, 39, 42, 43, 48, 57, 65, 90, 94, 96, 97, 122, 123, 126, 33, 45, 46,
  47, 61, 63, 64, 105, 35, 39, 42, 43, 48, 57, 65, 90, 94, 96, 97, 122, 123, 126, 33, 45, 46, 47, 61,
  63, 64, 101, 35, 39, 42, 43, 48, 57, 65, 90, 94, 96, 97, 122, 123, 126, 33, 45, 46, 47, 61, 63, 64,
  114, 35, 39, 42, 43, 48, 57, 65, 90, 94, 96, 97, 122, 123, 126, 46, 33, 38, 39, 45, 46, 47, 58, 61,
  63, 64, 95, 194, 195, 198, 199, 203, 205, 206, 207, 210, 212, 213, 214, 215, 216, 217, 219, 220, 221, 222, 223, 224,
  225, 226, 227, 228, 233, 234, 237, 239, 240, 35, 37, 42, 43, 48, 57, 65, 90, 94, 96, 97, 122, 123, 126, 196,
  202, 208, 218, 229, 236, 33, 46, 61, 64, 83, 115, 35, 39, 42, 43, 45, 57, 63, 90, 94, 126, 33, 45, 61,
  63, 91, 194, 195, 198, 199, 203, 205, 206, 207, 210, 212, 213, 214, 215, 216, 217, 219, 220, 221, 222, 223, 224, 225,
  226, 227, 228, 233, 234, 237, 239, 240, 35, 39, 42, 43, 47, 57, 65, 90, 94, 96, 97, 122, 123, 126, 196, 202,
  208, 218, 229, 236, 33, 46, 61, 63, 194, 195, 198, 199, 203, 205, 206, 207, 210, 212, 213, 214, 215, 216, 217, 219,
  220, 221, 222, 223, 224, 225, 226, 227, 228, 233, 234, 237, 239, 240, 35, 39, 42, 43, 45, 47, 48, 57, 65, 90,
  94, 96, 97, 122, 123, 126, 196, 202, 208, 218, 229, 236, 38, 39, 45, 64, 95, 194, 195, 198, 199, 203, 205, 206,
  207, 210, 212, 213, 214, 215, 216, 217, 219, 220, 221, 222, 223, 224, 225, 226, 227, 228, 233, 234, 237, 239, 240, 48,
  57, 65, 90, 97, 122, 196, 202, 208, 218, 229, 236, 194, 195, 198, 199, 203, 205, 206, 207, 210, 212, 213, 214, 215,
  216, 217, 219, 220, 221, 222, 223, 224, 225, 226, 227, 228, 233, 234, 237, 239, 240, 65, 90, 97]

/-- Part of _StdTok_trans_keys, scanner_utf8.c 219–1538. -/
def transKeys19 : List Nat := [122, 196, 202, 208, 218, 229, 236, 83, 115, 33, 38, 39, 45, 46, 47, 58, 61, 63, 64, 95, 194, 195, 198, 199,
  203, 205, 206, 207, 210, 212, 213, 214, 215, 216, 217, 219, 220, 221, 222, 223, 224, 225, 226, 227, 228, 233, 234, 237,
  239, 240, 35, 37, 42, 43, 48, 57, 65, 90, 94, 96, 97, 122, 123, 126, 196, 202, 208, 218, 229, 236, 38, 39,
  45, 64, 95, 194, 195, 198, 199, 203, 205, 206, 207, 210, 212, 213, 214, 215, 216, 217, 219, 220, 221, 222, 223, 224,
  225, 226, 227, 228, 233, 234, 237, 239, 240, 48, 57, 65, 90, 97, 122, 196, 202, 208, 218, 229, 236, 83, 115, 194,
  195, 198, 199, 203, 205, 206, 207, 210, 212, 213, 214, 215, 216, 217, 219, 220, 221, 222, 223, 224, 225, 226, 227, 228,
  233, 234, 237, 239, 240, 65, 90, 97, 122, 196, 202, 208, 218, 229, 236, 33, 38, 39, 45, 46, 47, 58, 61, 63,
  64, 95, 105, 116, 194, 195, 198, 199, 203, 205, 206, 207, 210, 212, 213, 214, 215, 216, 217, 219, 220, 221, 222, 223,
  224, 225, 226, 227, 228, 233, 234, 237, 239, 240, 35, 37, 42, 43, 48, 57, 65, 90, 94, 96, 97, 122, 123, 126,
  196, 202, 208, 218, 229, 236, 33, 38, 39, 45, 46, 47, 58, 61, 63, 64, 95, 108, 194, 195, 198, 199, 203, 205,
  206, 207, 210, 212, 213, 214, 215, 216, 217, 219, 220, 221, 222, 223, 224, 225, 226, 227, 228, 233, 234, 237, 239, 240,
  35, 37, 42, 43, 48, 57, 65, 90, 94, 96, 97, 122, 123, 126, 196, 202, 208, 218, 229, 236, 33, 38, 39, 45,
  46, 47, 58, 61, 63, 64, 95, 101, 194, 195, 198, 199, 203, 205, 206, 207, 210, 212, 213, 214, 215, 216, 217, 219,
  220, 221, 222, 223, 224, 225, 226, 227, 228, 233, 234, 237, 239, 240, 35, 37, 42, 43, 48, 57, 65, 90, 94, 96,
  97, 122, 123, 126, 196, 202, 208, 218, 229, 236, 33, 38, 39, 45, 46, 47, 58, 61, 63, 64, 95, 194, 195, 198,
  199, 203, 205, 206, 207, 210, 212, 213, 214, 215, 216, 217, 219, 220, 221, 222, 223, 224, 225, 226, 227, 228, 233, 234,
  237, 239, 240, 35, 37, 42, 43, 48, 57, 65, 90, 94, 96, 97, 122, 123, 126, 196, 202, 208, 218, 229, 236, 45,
  47, 58, 64, 95, 44, 46, 48, 57, 65, 90, 97, 122, 33, 38, 39, 45, 46, 47, 58, 61, 63, 64, 95, 112,
  194, 195, 198, 199, 203, 205, 206, 207, 210, 212, 213, 214, 215, 216, 217, 219, 220, 221, 222, 223, 224, 225, 226, 227,
  228, 233, 234, 237, 239, 240, 35, 37, 42, 43, 48, 57, 65, 90, 94, 96, 97, 122, 123, 126, 196, 202, 208, 218,
  229, 236, 33, 38, 39, 45, 46, 47, 58, 61, 63, 64, 95, 116, 194, 195, 198, 199, 203, 205]

/-- Part of _StdTok_trans_keys, scanner_utf8.c 219–1538. -/
def transKeys20 : List Nat := [206, 207, 210, 212, 213, 214, 215, 216, 217, 219, 220, 221, 222, 223, 224, 225, 226, 227, 228, 233, 234, 237, 239, 240,
  35, 37, 42, 43, 48, 57, 65, 90, 94, 96, 97, 122, 123, 126, 196, 202, 208, 218, 229, 236, 33, 38, 39, 45,
  46, 47, 58, 61, 63, 64, 95, 116, 194, 195, 198, 199, 203, 205, 206, 207, 210, 212, 213, 214, 215, 216, 217, 219,
  220, 221, 222, 223, 224, 225, 226, 227, 228, 233, 234, 237, 239, 240, 35, 37, 42, 43, 48, 57, 65, 90, 94, 96,
  97, 122, 123, 126, 196, 202, 208, 218, 229, 236, 33, 38, 39, 45, 46, 47, 58, 61, 63, 64, 95, 112, 194, 195,
  198, 199, 203, 205, 206, 207, 210, 212, 213, 214, 215, 216, 217, 219, 220, 221, 222, 223, 224, 225, 226, 227, 228, 233,
  234, 237, 239, 240, 35, 37, 42, 43, 48, 57, 65, 90, 94, 96, 97, 122, 123, 126, 196, 202, 208, 218, 229, 236,
  33, 38, 39, 45, 46, 47, 58, 61, 63, 64, 95, 115, 194, 195, 198, 199, 203, 205, 206, 207, 210, 212, 213, 214,
  215, 216, 217, 219, 220, 221, 222, 223, 224, 225, 226, 227, 228, 233, 234, 237, 239, 240, 35, 37, 42, 43, 48, 57,
  65, 90, 94, 96, 97, 122, 123, 126, 196, 202, 208, 218, 229, 236, 170, 181, 186, 38, 39, 45, 46, 64, 95, 194,
  195, 198, 199, 203, 205, 206, 207, 210, 212, 213, 214, 215, 216, 217, 219, 220, 221, 222, 223, 224, 225, 226, 227, 228,
  233, 234, 237, 239, 240, 48, 57, 65, 90, 97, 122, 196, 202, 208, 218, 229, 236, 128, 150, 152, 182, 184, 255, 192,
  255, 128, 255, 173, 130, 133, 146, 159, 165, 171, 175, 255, 133, 176, 180, 182, 183, 186, 189, 134, 140, 136, 138, 142,
  161, 163, 255, 182, 130, 137, 164, 176, 151, 152, 154, 160, 190, 136, 175, 192, 255, 135, 129, 130, 132, 133, 144, 170,
  176, 178, 144, 154, 161, 191, 128, 151, 153, 158, 174, 255, 148, 157, 160, 169, 172, 176, 185, 189, 190, 192, 255, 144,
  191, 141, 255, 178, 255, 186, 138, 170, 180, 181, 164, 165, 166, 167, 168, 169, 170, 171, 172, 173, 174, 175, 176, 177,
  178, 179, 180, 181, 182, 183, 184, 185, 186, 187, 188, 189, 190, 128, 129, 130, 131, 133, 134, 135, 137, 138, 139, 140,
  141, 142, 143, 144, 153, 154, 155, 156, 157, 158, 159, 160, 161, 162, 164, 165, 166, 167, 168, 172, 173, 174, 176, 177,
  180, 181, 182, 184, 188, 189, 190, 191, 132, 136, 145, 152, 185, 187, 129, 130, 132, 133, 134, 146, 147, 176, 177, 178,
  179, 180, 181, 182, 183, 184, 128, 129, 130, 131, 132, 133, 134, 135, 144, 145, 255, 182, 183, 184, 191, 192, 255, 128,
  146, 148, 152, 153, 154, 156, 157, 158, 159, 160, 161, 162, 163, 164, 165, 168, 169, 176, 129, 145]

/-- Part of _StdTok_trans_keys, scanner_utf8.c 219–1538. -/
def transKeys21 : List Nat := [149, 151, 177, 255, 158, 159, 255, 164, 168, 169, 171, 172, 173, 174, 175, 180, 181, 182, 183, 185, 186, 187, 188, 189,
  190, 191, 165, 179, 144, 146, 157, 160, 170, 175, 161, 169, 0]

/-- _StdTok_trans_keys, scanner_utf8.c 219–1538. -/
def transKeys : List Nat := transKeys0 ++ (transKeys1 ++ (transKeys2 ++ (transKeys3 ++ (transKeys4 ++ (transKeys5 ++ (transKeys6 ++ (transKeys7 ++ (transKeys8 ++ (transKeys9 ++ (transKeys10 ++ (transKeys11 ++ (transKeys12 ++ (transKeys13 ++ (transKeys14 ++ (transKeys15 ++ (transKeys16 ++ (transKeys17 ++ (transKeys18 ++ (transKeys19 ++ (transKeys20 ++ (transKeys21)))))))))))))))))))))

/-- Part of _StdTok_single_lengths, scanner_utf8.c 1540–1716. -/
def singles0 : List Nat := [0, 0, 4, 4, 5, 4, 2, 0, 2, 1, 0, 5, 37, 7, 7, 13, 7, 0, 8, 8, 8, 8, 8, 8,
  8, 8, 8, 35, 3, 30, 0, 0, 0, 0, 1, 1, 2, 1, 0, 0, 0, 1, 1, 0, 0, 1, 0, 0,
  0, 1, 27, 0, 0, 1, 2, 0, 1, 0, 2, 0, 1, 1, 2, 0, 3, 0, 1, 0, 2, 1, 1, 0,
  1, 5, 2, 1, 0, 0, 43, 1, 0, 0, 1, 0, 0, 0, 3, 2, 1, 1, 0, 0, 0, 0, 0, 0,
  0, 0, 0, 0, 0, 0, 0, 0, 0, 0, 0, 0, 0, 0, 1, 0, 0, 0, 0, 4, 1, 0, 16, 2,
  0, 6, 1, 0, 0, 0, 0, 2, 0, 0, 0, 0, 0, 1, 9, 0, 1, 1, 0, 0, 0, 3, 0, 0,
  1, 0, 19, 0, 0, 1, 0, 0, 0, 0, 3, 0, 0, 0, 0, 0, 1, 0, 19, 0, 0, 0, 1, 0,
  0, 0, 0, 0, 0, 0, 0, 0, 0, 0, 0, 6, 17, 0, 0, 0, 0, 0, 0, 0, 0, 0, 1, 0,
  3, 0, 0, 4, 0, 0, 12, 1, 4, 1, 4, 1, 0, 3, 2, 2, 2, 1, 1, 1, 0, 2, 13, 1,
  1, 3, 0, 0, 0, 0, 1, 1, 2, 1, 0, 0, 0, 1, 1, 0, 0, 1, 0, 0, 0, 1, 27, 0,
  0, 1, 2, 0, 1, 0, 2, 0, 1, 1, 2, 0, 3, 0, 1, 0, 2, 1, 1, 0, 1, 5, 2, 1,
  0, 0, 43, 1, 0, 0, 1, 0, 0, 0, 3, 2, 1, 1, 0, 0, 0, 0, 0, 0, 0, 0, 0, 0,
  0, 0, 0, 0, 0, 0, 0, 0, 0, 0, 1, 0, 0, 0, 0, 4, 1, 0, 16, 2, 0, 6, 1, 0,
  0, 0, 0, 2, 0, 0, 0, 0, 0, 1, 9, 0, 1, 1, 0, 0, 0, 3, 0, 0, 1, 0, 19, 0,
  0, 1, 0, 0, 0, 0, 3, 0, 0, 0, 0, 0, 1, 0, 19, 0, 0, 0, 1, 0, 0, 0, 0, 0,
  0, 0, 0, 0, 0, 0, 0, 6, 17, 0, 0, 0, 0, 0, 0, 0, 0, 0, 1, 0, 3, 0, 0, 4,
  0, 0, 12, 1, 4, 1, 4, 1, 0, 3, 2, 2, 2, 1, 1, 1, 0, 2, 3, 0, 0, 0, 0, 1,
  1, 2, 1, 0, 0, 0, 1, 1, 0, 0, 1, 0, 0, 0, 1, 27, 0, 0, 1, 2, 0, 1, 0, 2,
  0, 1, 1, 2, 0, 3, 0, 1, 0, 2, 1, 1, 0, 1, 5, 2, 1, 0, 0, 43, 1, 0, 0, 1,
  0, 0, 0, 3, 2, 1, 1, 0, 0, 0, 0, 0, 0, 0, 0, 0, 0, 0, 0, 0, 0, 0, 0, 0,
  0, 0, 0, 1, 0, 0, 0, 0, 4, 1, 0, 16, 2, 0, 6, 1, 0, 0, 0, 0]

/-- Part of _StdTok_single_lengths, scanner_utf8.c 1540–1716. -/
def singles1 : List Nat := [2, 0, 0, 0, 0, 0, 1, 9, 0, 1, 1, 0, 0, 0, 3, 0, 0, 1, 0, 19, 0, 0, 1, 0,
  0, 0, 0, 3, 0, 0, 0, 0, 0, 1, 0, 19, 0, 0, 0, 1, 0, 0, 0, 0, 0, 0, 0, 0,
  0, 0, 0, 0, 6, 17, 0, 0, 0, 0, 0, 0, 0, 0, 0, 1, 0, 3, 0, 0, 4, 0, 0, 12,
  1, 4, 1, 4, 1, 0, 3, 2, 2, 2, 1, 1, 1, 0, 2, 43, 3, 30, 0, 0, 0, 0, 1, 1,
  2, 1, 0, 0, 0, 1, 1, 0, 0, 1, 0, 0, 0, 1, 27, 0, 0, 1, 2, 0, 1, 0, 2, 0,
  1, 1, 2, 0, 3, 0, 1, 0, 2, 1, 1, 0, 1, 5, 2, 1, 0, 0, 43, 1, 0, 0, 1, 0,
  0, 0, 3, 2, 1, 1, 0, 0, 0, 0, 0, 0, 0, 0, 0, 0, 0, 0, 0, 0, 0, 0, 0, 0,
  0, 0, 1, 0, 0, 0, 0, 4, 1, 0, 16, 2, 0, 6, 1, 0, 0, 0, 0, 2, 0, 0, 0, 0,
  0, 1, 9, 0, 1, 1, 0, 0, 0, 3, 0, 0, 1, 0, 19, 0, 0, 1, 0, 0, 0, 0, 3, 0,
  0, 0, 0, 0, 1, 0, 19, 0, 0, 0, 1, 0, 0, 0, 0, 0, 0, 0, 0, 0, 0, 0, 0, 6,
  17, 0, 0, 0, 0, 0, 0, 0, 0, 0, 1, 0, 3, 0, 0, 4, 0, 0, 12, 1, 4, 1, 4, 1,
  0, 3, 2, 2, 2, 1, 1, 1, 0, 2, 3, 0, 0, 0, 0, 1, 1, 2, 1, 0, 0, 0, 1, 1,
  0, 0, 1, 0, 0, 0, 1, 27, 0, 0, 1, 2, 0, 1, 0, 2, 0, 1, 1, 2, 0, 3, 0, 1,
  0, 2, 1, 1, 0, 1, 5, 2, 1, 0, 0, 43, 1, 0, 0, 1, 0, 0, 0, 3, 2, 1, 1, 0,
  0, 0, 0, 0, 0, 0, 0, 0, 0, 0, 0, 0, 0, 0, 0, 0, 0, 0, 0, 1, 0, 0, 0, 0,
  4, 1, 0, 16, 2, 0, 6, 1, 0, 0, 0, 0, 2, 0, 0, 0, 0, 0, 1, 9, 0, 1, 1, 0,
  0, 0, 3, 0, 0, 1, 0, 19, 0, 0, 1, 0, 0, 0, 0, 3, 0, 0, 0, 0, 0, 1, 0, 19,
  0, 0, 0, 1, 0, 0, 0, 0, 0, 0, 0, 0, 0, 0, 0, 0, 6, 17, 0, 0, 0, 0, 0, 0,
  0, 0, 0, 1, 0, 3, 0, 0, 4, 0, 0, 12, 1, 4, 1, 4, 1, 0, 3, 2, 2, 2, 1, 1,
  1, 0, 2, 3, 0, 0, 0, 0, 1, 1, 2, 1, 0, 0, 0, 1, 1, 0, 0, 1, 0, 0, 0, 1,
  27, 0, 0, 1, 2, 0, 1, 0, 2, 0, 1, 1, 2, 0, 3, 0, 1, 0, 2, 1]

/-- Part of _StdTok_single_lengths, scanner_utf8.c 1540–1716. -/
def singles2 : List Nat := [1, 0, 1, 5, 2, 1, 0, 0, 43, 1, 0, 0, 1, 0, 0, 0, 3, 2, 1, 1, 0, 0, 0, 0,
  0, 0, 0, 0, 0, 0, 0, 0, 0, 0, 0, 0, 0, 0, 0, 0, 1, 0, 0, 0, 0, 4, 1, 0,
  16, 2, 0, 6, 1, 0, 0, 0, 0, 2, 0, 0, 0, 0, 0, 1, 9, 0, 1, 1, 0, 0, 0, 3,
  0, 0, 1, 0, 19, 0, 0, 1, 0, 0, 0, 0, 3, 0, 0, 0, 0, 0, 1, 0, 19, 0, 0, 0,
  1, 0, 0, 0, 0, 0, 0, 0, 0, 0, 0, 0, 0, 6, 17, 0, 0, 0, 0, 0, 0, 0, 0, 0,
  1, 0, 3, 0, 0, 4, 0, 0, 12, 1, 4, 1, 4, 1, 0, 3, 2, 2, 2, 1, 1, 1, 0, 2,
  1, 5, 0, 0, 1, 2, 0, 1, 0, 2, 0, 1, 1, 2, 0, 3, 0, 1, 0, 2, 1, 1, 0, 1,
  5, 2, 1, 0, 0, 1, 0, 0, 1, 0, 0, 0, 0, 3, 2, 1, 1, 0, 0, 0, 0, 0, 0, 0,
  0, 0, 0, 0, 0, 0, 0, 0, 0, 0, 0, 0, 0, 0, 1, 0, 0, 0, 0, 0, 4, 1, 0, 2,
  0, 6, 1, 0, 0, 0, 0, 2, 0, 0, 0, 0, 0, 1, 0, 1, 1, 0, 0, 0, 0, 0, 0, 0,
  1, 0, 0, 0, 0, 3, 0, 0, 0, 0, 0, 0, 0, 0, 0, 1, 0, 0, 0, 0, 0, 0, 0, 0,
  0, 0, 0, 0, 0, 17, 0, 0, 0, 0, 0, 0, 0, 0, 0, 1, 0, 3, 0, 0, 4, 0, 0, 12,
  1, 4, 1, 4, 1, 0, 3, 2, 2, 2, 1, 1, 0, 1, 0, 2, 0, 40, 4, 4, 2, 4, 4, 4,
  39, 8, 1, 9, 9, 9, 9, 10, 9, 9, 9, 38, 38, 32, 7, 2, 39, 41, 35, 35, 30, 37, 35, 30,
  7, 8, 8, 8, 8, 8, 8, 8, 8, 1, 41, 6, 35, 34, 35, 30, 2, 41, 35, 32, 43, 42, 42, 41,
  5, 42, 42, 42, 42, 42, 3, 36, 0, 0, 0, 0, 1, 1, 2, 1, 0, 0, 0, 1, 1, 0, 0, 1,
  0, 0, 0, 1, 27, 43, 16, 9, 3, 0, 1, 19, 1, 19, 6]

/-- _StdTok_single_lengths, scanner_utf8.c 1540–1716. -/
def singles : List Nat := singles0 ++ (singles1 ++ (singles2))

/-- Part of _StdTok_range_lengths, scanner_utf8.c 1718–1894. -/
def ranges0 : List Nat := [0, 0, 5, 5, 5, 5, 5, 3, 4, 0, 3, 5, 10, 7, 7, 7, 7, 1, 7, 7, 7, 7, 7, 7,
  7, 7, 7, 11, 0, 6, 3, 0, 1, 1, 4, 3, 3, 0, 1, 1, 2, 2, 4, 2, 3, 5, 1, 1,
  1, 2, 0, 2, 5, 7, 6, 9, 6, 8, 3, 8, 6, 10, 3, 7, 3, 7, 5, 6, 4, 4, 4, 1,
  1, 8, 2, 0, 3, 4, 3, 2, 3, 2, 2, 1, 1, 1, 2, 3, 3, 1, 2, 2, 1, 1, 2, 2,
  2, 3, 4, 2, 3, 1, 1, 1, 3, 2, 2, 1, 1, 2, 1, 2, 1, 2, 2, 3, 2, 7, 0, 0,
  1, 5, 2, 1, 1, 1, 2, 1, 1, 2, 2, 5, 5, 0, 1, 4, 1, 1, 2, 2, 1, 0, 1, 0,
  1, 1, 3, 1, 3, 2, 1, 2, 2, 1, 1, 1, 2, 1, 1, 1, 1, 1, 1, 1, 1, 1, 5, 3,
  1, 1, 1, 1, 2, 2, 1, 1, 2, 1, 4, 1, 0, 5, 2, 1, 1, 2, 1, 2, 1, 2, 2, 1,
  3, 2, 5, 1, 1, 1, 1, 0, 3, 0, 2, 3, 1, 0, 0, 0, 0, 1, 1, 1, 1, 1, 7, 0,
  3, 0, 3, 0, 1, 1, 4, 3, 3, 0, 1, 1, 2, 2, 4, 2, 3, 5, 1, 1, 1, 2, 0, 2,
  5, 7, 6, 9, 6, 8, 3, 8, 6, 10, 3, 7, 3, 7, 5, 6, 4, 4, 4, 1, 1, 8, 2, 0,
  3, 4, 3, 2, 3, 2, 2, 1, 1, 1, 2, 3, 3, 1, 2, 2, 1, 1, 2, 2, 2, 3, 4, 2,
  3, 1, 1, 1, 3, 2, 2, 1, 1, 2, 1, 2, 1, 2, 2, 3, 2, 7, 0, 0, 1, 5, 2, 1,
  1, 1, 2, 1, 1, 2, 2, 5, 5, 0, 1, 4, 1, 1, 2, 2, 1, 0, 1, 0, 1, 1, 3, 1,
  3, 2, 1, 2, 2, 1, 1, 1, 2, 1, 1, 1, 1, 1, 1, 1, 1, 1, 5, 3, 1, 1, 1, 1,
  2, 2, 1, 1, 2, 1, 4, 1, 0, 5, 2, 1, 1, 2, 1, 2, 1, 2, 2, 1, 3, 2, 5, 1,
  1, 1, 1, 0, 3, 0, 2, 3, 1, 0, 0, 0, 0, 1, 1, 1, 1, 1, 0, 3, 0, 1, 1, 4,
  3, 3, 0, 1, 1, 2, 2, 4, 2, 3, 5, 1, 1, 1, 2, 0, 2, 5, 7, 6, 9, 6, 8, 3,
  8, 6, 10, 3, 7, 3, 7, 5, 6, 4, 4, 4, 1, 1, 8, 2, 0, 3, 4, 3, 2, 3, 2, 2,
  1, 1, 1, 2, 3, 3, 1, 2, 2, 1, 1, 2, 2, 2, 3, 4, 2, 3, 1, 1, 1, 3, 2, 2,
  1, 1, 2, 1, 2, 1, 2, 2, 3, 2, 7, 0, 0, 1, 5, 2, 1, 1, 1, 2]

/-- Part of _StdTok_range_lengths, scanner_utf8.c 1718–1894. -/
def ranges1 : List Nat := [1, 1, 2, 2, 5, 5, 0, 1, 4, 1, 1, 2, 2, 1, 0, 1, 0, 1, 1, 3, 1, 3, 2, 1,
  2, 2, 1, 1, 1, 2, 1, 1, 1, 1, 1, 1, 1, 1, 1, 5, 3, 1, 1, 1, 1, 2, 2, 1,
  1, 2, 1, 4, 1, 0, 5, 2, 1, 1, 2, 1, 2, 1, 2, 2, 1, 3, 2, 5, 1, 1, 1, 1,
  0, 3, 0, 2, 3, 1, 0, 0, 0, 0, 1, 1, 1, 1, 1, 10, 0, 5, 3, 0, 1, 1, 4, 3,
  3, 0, 1, 1, 2, 2, 4, 2, 3, 5, 1, 1, 1, 2, 0, 2, 5, 7, 6, 9, 6, 8, 3, 8,
  6, 10, 3, 7, 3, 7, 5, 6, 4, 4, 4, 1, 1, 8, 2, 0, 3, 4, 3, 2, 3, 2, 2, 1,
  1, 1, 2, 3, 3, 1, 2, 2, 1, 1, 2, 2, 2, 3, 4, 2, 3, 1, 1, 1, 3, 2, 2, 1,
  1, 2, 1, 2, 1, 2, 2, 3, 2, 7, 0, 0, 1, 5, 2, 1, 1, 1, 2, 1, 1, 2, 2, 5,
  5, 0, 1, 4, 1, 1, 2, 2, 1, 0, 1, 0, 1, 1, 3, 1, 3, 2, 1, 2, 2, 1, 1, 1,
  2, 1, 1, 1, 1, 1, 1, 1, 1, 1, 5, 3, 1, 1, 1, 1, 2, 2, 1, 1, 2, 1, 4, 1,
  0, 5, 2, 1, 1, 2, 1, 2, 1, 2, 2, 1, 3, 2, 5, 1, 1, 1, 1, 0, 3, 0, 2, 3,
  1, 0, 0, 0, 0, 1, 1, 1, 1, 1, 0, 3, 0, 1, 1, 4, 3, 3, 0, 1, 1, 2, 2, 4,
  2, 3, 5, 1, 1, 1, 2, 0, 2, 5, 7, 6, 9, 6, 8, 3, 8, 6, 10, 3, 7, 3, 7, 5,
  6, 4, 4, 4, 1, 1, 8, 2, 0, 3, 4, 3, 2, 3, 2, 2, 1, 1, 1, 2, 3, 3, 1, 2,
  2, 1, 1, 2, 2, 2, 3, 4, 2, 3, 1, 1, 1, 3, 2, 2, 1, 1, 2, 1, 2, 1, 2, 2,
  3, 2, 7, 0, 0, 1, 5, 2, 1, 1, 1, 2, 1, 1, 2, 2, 5, 5, 0, 1, 4, 1, 1, 2,
  2, 1, 0, 1, 0, 1, 1, 3, 1, 3, 2, 1, 2, 2, 1, 1, 1, 2, 1, 1, 1, 1, 1, 1,
  1, 1, 1, 5, 3, 1, 1, 1, 1, 2, 2, 1, 1, 2, 1, 4, 1, 0, 5, 2, 1, 1, 2, 1,
  2, 1, 2, 2, 1, 3, 2, 5, 1, 1, 1, 1, 0, 3, 0, 2, 3, 1, 0, 0, 0, 0, 1, 1,
  1, 1, 1, 0, 3, 0, 1, 1, 4, 3, 3, 0, 1, 1, 2, 2, 4, 2, 3, 5, 1, 1, 1, 2,
  0, 2, 5, 7, 6, 9, 6, 8, 3, 8, 6, 10, 3, 7, 3, 7, 5, 6, 4, 4]

/-- Part of _StdTok_range_lengths, scanner_utf8.c 1718–1894. -/
def ranges2 : List Nat := [4, 1, 1, 8, 2, 0, 3, 4, 3, 2, 3, 2, 2, 1, 1, 1, 2, 3, 3, 1, 2, 2, 1, 1,
  2, 2, 2, 3, 4, 2, 3, 1, 1, 1, 3, 2, 2, 1, 1, 2, 1, 2, 1, 2, 2, 3, 2, 7,
  0, 0, 1, 5, 2, 1, 1, 1, 2, 1, 1, 2, 2, 5, 5, 0, 1, 4, 1, 1, 2, 2, 1, 0,
  1, 0, 1, 1, 3, 1, 3, 2, 1, 2, 2, 1, 1, 1, 2, 1, 1, 1, 1, 1, 1, 1, 1, 1,
  5, 3, 1, 1, 1, 1, 2, 2, 1, 1, 2, 1, 4, 1, 0, 5, 2, 1, 1, 2, 1, 2, 1, 2,
  2, 1, 3, 2, 5, 1, 1, 1, 1, 0, 3, 0, 2, 3, 1, 0, 0, 0, 0, 1, 1, 1, 1, 1,
  0, 4, 2, 5, 7, 6, 9, 6, 8, 3, 8, 6, 10, 3, 7, 3, 7, 5, 6, 4, 4, 4, 1, 1,
  8, 2, 0, 3, 4, 2, 3, 2, 2, 1, 1, 1, 1, 2, 3, 3, 1, 2, 2, 1, 1, 0, 2, 2,
  2, 3, 4, 2, 3, 1, 1, 1, 3, 2, 2, 1, 1, 2, 1, 2, 1, 2, 1, 2, 3, 2, 7, 0,
  1, 5, 2, 1, 1, 1, 2, 1, 1, 2, 2, 5, 5, 0, 4, 1, 1, 2, 2, 1, 1, 1, 1, 3,
  2, 1, 2, 2, 1, 1, 1, 2, 1, 1, 1, 1, 1, 1, 1, 5, 3, 1, 1, 1, 1, 1, 2, 2,
  1, 1, 2, 1, 4, 0, 5, 2, 1, 1, 2, 1, 2, 1, 2, 2, 1, 3, 2, 5, 1, 1, 1, 1,
  0, 3, 0, 2, 3, 1, 0, 0, 0, 0, 1, 1, 0, 1, 1, 1, 0, 9, 5, 5, 4, 6, 6, 6,
  10, 7, 1, 7, 7, 7, 7, 7, 7, 7, 7, 10, 10, 6, 7, 3, 10, 10, 10, 11, 6, 10, 10, 5,
  7, 7, 7, 7, 7, 7, 7, 7, 7, 0, 10, 5, 10, 11, 6, 5, 0, 10, 6, 5, 10, 10, 10, 10,
  4, 10, 10, 10, 10, 10, 0, 6, 3, 0, 1, 1, 4, 3, 3, 0, 1, 1, 2, 2, 4, 2, 3, 5,
  1, 1, 1, 2, 0, 3, 0, 1, 0, 0, 1, 3, 1, 1, 1]

/-- _StdTok_range_lengths, scanner_utf8.c 1718–1894. -/
def ranges : List Nat := ranges0 ++ (ranges1 ++ (ranges2))

/-- Part of _StdTok_index_offsets, scanner_utf8.c 1896–2072. -/
def indexOffsets0 : List Nat := [0, 0, 1, 11, 21, 32, 42, 50, 54, 61, 63, 67, 78, 126, 141, 156, 177, 192, 194, 210, 226, 242, 258, 274,
  290, 306, 322, 338, 385, 389, 426, 430, 431, 433, 435, 441, 446, 452, 454, 456, 458, 461, 465, 471, 474, 478, 485, 487,
  489, 491, 495, 523, 526, 532, 541, 550, 560, 568, 577, 583, 592, 600, 612, 618, 626, 633, 641, 648, 655, 662, 668, 674,
  676, 679, 693, 698, 700, 704, 709, 756, 760, 764, 767, 771, 773, 775, 777, 783, 789, 794, 797, 800, 803, 805, 807, 810,
  813, 816, 820, 825, 828, 832, 834, 836, 838, 842, 845, 848, 850, 852, 855, 858, 861, 863, 866, 869, 877, 881, 889, 906,
  909, 911, 923, 927, 929, 931, 933, 936, 940, 942, 945, 948, 954, 960, 962, 973, 978, 981, 984, 987, 990, 992, 996, 998,
  999, 1002, 1004, 1027, 1029, 1033, 1037, 1039, 1042, 1045, 1047, 1052, 1054, 1057, 1059, 1061, 1063, 1066, 1068, 1089, 1091, 1093, 1095, 1102,
  1106, 1108, 1110, 1112, 1114, 1117, 1120, 1122, 1124, 1127, 1129, 1134, 1142, 1160, 1166, 1169, 1171, 1173, 1176, 1178, 1181, 1183, 1186, 1190,
  1192, 1199, 1202, 1208, 1214, 1216, 1218, 1232, 1234, 1242, 1244, 1251, 1256, 1258, 1262, 1265, 1268, 1271, 1274, 1277, 1280, 1282, 1286, 1307,
  1309, 1314, 1318, 1322, 1323, 1325, 1327, 1333, 1338, 1344, 1346, 1348, 1350, 1353, 1357, 1363, 1366, 1370, 1377, 1379, 1381, 1383, 1387, 1415,
  1418, 1424, 1433, 1442, 1452, 1460, 1469, 1475, 1484, 1492, 1504, 1510, 1518, 1525, 1533, 1540, 1547, 1554, 1560, 1566, 1568, 1571, 1585, 1590,
  1592, 1596, 1601, 1648, 1652, 1656, 1659, 1663, 1665, 1667, 1669, 1675, 1681, 1686, 1689, 1692, 1695, 1697, 1699, 1702, 1705, 1708, 1712, 1717,
  1720, 1724, 1726, 1728, 1730, 1734, 1737, 1740, 1742, 1744, 1747, 1750, 1753, 1755, 1758, 1761, 1769, 1773, 1781, 1798, 1801, 1803, 1815, 1819,
  1821, 1823, 1825, 1828, 1832, 1834, 1837, 1840, 1846, 1852, 1854, 1865, 1870, 1873, 1876, 1879, 1882, 1884, 1888, 1890, 1891, 1894, 1896, 1919,
  1921, 1925, 1929, 1931, 1934, 1937, 1939, 1944, 1946, 1949, 1951, 1953, 1955, 1958, 1960, 1981, 1983, 1985, 1987, 1994, 1998, 2000, 2002, 2004,
  2006, 2009, 2012, 2014, 2016, 2019, 2021, 2026, 2034, 2052, 2058, 2061, 2063, 2065, 2068, 2070, 2073, 2075, 2078, 2082, 2084, 2091, 2094, 2100,
  2106, 2108, 2110, 2124, 2126, 2134, 2136, 2143, 2148, 2150, 2154, 2157, 2160, 2163, 2166, 2169, 2172, 2174, 2178, 2182, 2186, 2187, 2189, 2191,
  2197, 2202, 2208, 2210, 2212, 2214, 2217, 2221, 2227, 2230, 2234, 2241, 2243, 2245, 2247, 2251, 2279, 2282, 2288, 2297, 2306, 2316, 2324, 2333,
  2339, 2348, 2356, 2368, 2374, 2382, 2389, 2397, 2404, 2411, 2418, 2424, 2430, 2432, 2435, 2449, 2454, 2456, 2460, 2465, 2512, 2516, 2520, 2523,
  2527, 2529, 2531, 2533, 2539, 2545, 2550, 2553, 2556, 2559, 2561, 2563, 2566, 2569, 2572, 2576, 2581, 2584, 2588, 2590, 2592, 2594, 2598, 2601,
  2604, 2606, 2608, 2611, 2614, 2617, 2619, 2622, 2625, 2633, 2637, 2645, 2662, 2665, 2667, 2679, 2683, 2685, 2687, 2689]

/-- Part of _StdTok_index_offsets, scanner_utf8.c 1896–2072. -/
def indexOffsets1 : List Nat := [2692, 2696, 2698, 2701, 2704, 2710, 2716, 2718, 2729, 2734, 2737, 2740, 2743, 2746, 2748, 2752, 2754, 2755, 2758, 2760, 2783, 2785, 2789, 2793,
  2795, 2798, 2801, 2803, 2808, 2810, 2813, 2815, 2817, 2819, 2822, 2824, 2845, 2847, 2849, 2851, 2858, 2862, 2864, 2866, 2868, 2870, 2873, 2876,
  2878, 2880, 2883, 2885, 2890, 2898, 2916, 2922, 2925, 2927, 2929, 2932, 2934, 2937, 2939, 2942, 2946, 2948, 2955, 2958, 2964, 2970, 2972, 2974,
  2988, 2990, 2998, 3000, 3007, 3012, 3014, 3018, 3021, 3024, 3027, 3030, 3033, 3036, 3038, 3042, 3096, 3100, 3136, 3140, 3141, 3143, 3145, 3151,
  3156, 3162, 3164, 3166, 3168, 3171, 3175, 3181, 3184, 3188, 3195, 3197, 3199, 3201, 3205, 3233, 3236, 3242, 3251, 3260, 3270, 3278, 3287, 3293,
  3302, 3310, 3322, 3328, 3336, 3343, 3351, 3358, 3365, 3372, 3378, 3384, 3386, 3389, 3403, 3408, 3410, 3414, 3419, 3466, 3470, 3474, 3477, 3481,
  3483, 3485, 3487, 3493, 3499, 3504, 3507, 3510, 3513, 3515, 3517, 3520, 3523, 3526, 3530, 3535, 3538, 3542, 3544, 3546, 3548, 3552, 3555, 3558,
  3560, 3562, 3565, 3568, 3571, 3573, 3576, 3579, 3587, 3591, 3599, 3616, 3619, 3621, 3633, 3637, 3639, 3641, 3643, 3646, 3650, 3652, 3655, 3658,
  3664, 3670, 3672, 3683, 3688, 3691, 3694, 3697, 3700, 3702, 3706, 3708, 3709, 3712, 3714, 3737, 3739, 3743, 3747, 3749, 3752, 3755, 3757, 3762,
  3764, 3767, 3769, 3771, 3773, 3776, 3778, 3799, 3801, 3803, 3805, 3812, 3816, 3818, 3820, 3822, 3824, 3827, 3830, 3832, 3834, 3837, 3839, 3844,
  3852, 3870, 3876, 3879, 3881, 3883, 3886, 3888, 3891, 3893, 3896, 3900, 3902, 3909, 3912, 3918, 3924, 3926, 3928, 3942, 3944, 3952, 3954, 3961,
  3966, 3968, 3972, 3975, 3978, 3981, 3984, 3987, 3990, 3992, 3996, 4000, 4004, 4005, 4007, 4009, 4015, 4020, 4026, 4028, 4030, 4032, 4035, 4039,
  4045, 4048, 4052, 4059, 4061, 4063, 4065, 4069, 4097, 4100, 4106, 4115, 4124, 4134, 4142, 4151, 4157, 4166, 4174, 4186, 4192, 4200, 4207, 4215,
  4222, 4229, 4236, 4242, 4248, 4250, 4253, 4267, 4272, 4274, 4278, 4283, 4330, 4334, 4338, 4341, 4345, 4347, 4349, 4351, 4357, 4363, 4368, 4371,
  4374, 4377, 4379, 4381, 4384, 4387, 4390, 4394, 4399, 4402, 4406, 4408, 4410, 4412, 4416, 4419, 4422, 4424, 4426, 4429, 4432, 4435, 4437, 4440,
  4443, 4451, 4455, 4463, 4480, 4483, 4485, 4497, 4501, 4503, 4505, 4507, 4510, 4514, 4516, 4519, 4522, 4528, 4534, 4536, 4547, 4552, 4555, 4558,
  4561, 4564, 4566, 4570, 4572, 4573, 4576, 4578, 4601, 4603, 4607, 4611, 4613, 4616, 4619, 4621, 4626, 4628, 4631, 4633, 4635, 4637, 4640, 4642,
  4663, 4665, 4667, 4669, 4676, 4680, 4682, 4684, 4686, 4688, 4691, 4694, 4696, 4698, 4701, 4703, 4708, 4716, 4734, 4740, 4743, 4745, 4747, 4750,
  4752, 4755, 4757, 4760, 4764, 4766, 4773, 4776, 4782, 4788, 4790, 4792, 4806, 4808, 4816, 4818, 4825, 4830, 4832, 4836, 4839, 4842, 4845, 4848,
  4851, 4854, 4856, 4860, 4864, 4868, 4869, 4871, 4873, 4879, 4884, 4890, 4892, 4894, 4896, 4899, 4903, 4909, 4912, 4916, 4923, 4925, 4927, 4929,
  4933, 4961, 4964, 4970, 4979, 4988, 4998, 5006, 5015, 5021, 5030, 5038, 5050, 5056, 5064, 5071, 5079, 5086, 5093, 5100]

/-- Part of _StdTok_index_offsets, scanner_utf8.c 1896–2072. -/
def indexOffsets2 : List Nat := [5106, 5112, 5114, 5117, 5131, 5136, 5138, 5142, 5147, 5194, 5198, 5202, 5205, 5209, 5211, 5213, 5215, 5221, 5227, 5232, 5235, 5238, 5241, 5243,
  5245, 5248, 5251, 5254, 5258, 5263, 5266, 5270, 5272, 5274, 5276, 5280, 5283, 5286, 5288, 5290, 5293, 5296, 5299, 5301, 5304, 5307, 5315, 5319,
  5327, 5344, 5347, 5349, 5361, 5365, 5367, 5369, 5371, 5374, 5378, 5380, 5383, 5386, 5392, 5398, 5400, 5411, 5416, 5419, 5422, 5425, 5428, 5430,
  5434, 5436, 5437, 5440, 5442, 5465, 5467, 5471, 5475, 5477, 5480, 5483, 5485, 5490, 5492, 5495, 5497, 5499, 5501, 5504, 5506, 5527, 5529, 5531,
  5533, 5540, 5544, 5546, 5548, 5550, 5552, 5555, 5558, 5560, 5562, 5565, 5567, 5572, 5580, 5598, 5604, 5607, 5609, 5611, 5614, 5616, 5619, 5621,
  5624, 5628, 5630, 5637, 5640, 5646, 5652, 5654, 5656, 5670, 5672, 5680, 5682, 5689, 5694, 5696, 5700, 5703, 5706, 5709, 5712, 5715, 5718, 5720,
  5724, 5726, 5736, 5739, 5745, 5754, 5763, 5773, 5781, 5790, 5796, 5805, 5813, 5825, 5831, 5839, 5846, 5854, 5861, 5868, 5875, 5881, 5887, 5889,
  5892, 5906, 5911, 5913, 5917, 5922, 5926, 5930, 5933, 5937, 5939, 5941, 5943, 5945, 5951, 5957, 5962, 5965, 5968, 5971, 5973, 5975, 5976, 5979,
  5982, 5985, 5989, 5994, 5997, 6001, 6003, 6005, 6007, 6011, 6014, 6017, 6019, 6021, 6024, 6027, 6030, 6032, 6035, 6037, 6040, 6048, 6052, 6060,
  6063, 6065, 6077, 6081, 6083, 6085, 6087, 6090, 6094, 6096, 6099, 6102, 6108, 6114, 6116, 6121, 6124, 6127, 6130, 6133, 6135, 6137, 6139, 6141,
  6145, 6149, 6151, 6154, 6157, 6159, 6164, 6166, 6169, 6171, 6173, 6175, 6177, 6179, 6181, 6183, 6190, 6194, 6196, 6198, 6200, 6202, 6204, 6207,
  6210, 6212, 6214, 6217, 6219, 6224, 6242, 6248, 6251, 6253, 6255, 6258, 6260, 6263, 6265, 6268, 6272, 6274, 6281, 6284, 6290, 6296, 6298, 6300,
  6314, 6316, 6324, 6326, 6333, 6338, 6340, 6344, 6347, 6350, 6353, 6356, 6359, 6360, 6363, 6365, 6369, 6370, 6420, 6430, 6440, 6447, 6458, 6469,
  6480, 6530, 6546, 6549, 6566, 6583, 6600, 6617, 6635, 6652, 6669, 6686, 6735, 6784, 6823, 6838, 6844, 6894, 6946, 6992, 7039, 7076, 7124, 7170,
  7206, 7221, 7237, 7253, 7269, 7285, 7301, 7317, 7333, 7349, 7351, 7403, 7415, 7461, 7507, 7549, 7585, 7588, 7640, 7682, 7720, 7774, 7827, 7880,
  7932, 7942, 7995, 8048, 8101, 8154, 8207, 8211, 8254, 8258, 8259, 8261, 8263, 8269, 8274, 8280, 8282, 8284, 8286, 8289, 8293, 8299, 8302, 8306,
  8313, 8315, 8317, 8319, 8323, 8351, 8398, 8415, 8426, 8430, 8431, 8434, 8457, 8460, 8481]

/-- _StdTok_index_offsets, scanner_utf8.c 1896–2072. -/
def indexOffsets : List Nat := indexOffsets0 ++ (indexOffsets1 ++ (indexOffsets2))

/-- Part of _StdTok_indicies, scanner_utf8.c 2074–3137. -/
def indicies0 : List Nat := [0, 2, 3, 2, 4, 2, 2, 2, 2, 2, 1, 2, 2, 2, 2, 2, 2, 2, 2, 2, 1, 5, 5, 5,
  5, 6, 5, 5, 5, 5, 5, 1, 5, 5, 5, 5, 5, 5, 5, 5, 5, 7, 8, 9, 6, 6, 6, 6,
  6, 1, 6, 6, 6, 1, 12, 13, 11, 11, 11, 11, 10, 4, 10, 11, 11, 11, 10, 2, 2, 2, 2, 2,
  2, 2, 15, 2, 2, 14, 2, 16, 3, 2, 2, 2, 4, 18, 19, 21, 22, 23, 24, 25, 26, 27, 28, 29,
  30, 31, 32, 33, 34, 35, 36, 37, 38, 39, 40, 41, 42, 43, 45, 46, 47, 48, 49, 2, 2, 17, 17, 2,
  17, 2, 20, 20, 44, 1, 2, 16, 3, 2, 2, 2, 4, 2, 2, 50, 50, 2, 50, 2, 1, 2, 16, 51,
  2, 2, 2, 4, 2, 2, 50, 50, 2, 50, 2, 1, 2, 2, 2, 2, 2, 53, 54, 55, 56, 57, 58, 59,
  60, 2, 2, 50, 52, 2, 52, 2, 1, 2, 16, 51, 2, 2, 2, 4, 2, 2, 50, 61, 2, 61, 2, 1,
  63, 62, 2, 16, 51, 2, 2, 2, 4, 64, 2, 2, 50, 61, 2, 61, 2, 1, 2, 16, 51, 2, 2, 2,
  4, 65, 2, 2, 50, 61, 2, 61, 2, 1, 2, 16, 51, 2, 2, 2, 4, 66, 2, 2, 50, 61, 2, 61,
  2, 1, 2, 16, 51, 2, 2, 2, 4, 67, 2, 2, 50, 61, 2, 61, 2, 1, 2, 16, 51, 2, 2, 2,
  4, 68, 2, 2, 50, 61, 2, 61, 2, 1, 2, 16, 51, 2, 2, 2, 4, 61, 2, 2, 50, 50, 2, 50,
  2, 62, 2, 16, 51, 2, 2, 2, 4, 69, 2, 2, 50, 61, 2, 61, 2, 1, 2, 16, 51, 2, 2, 2,
  4, 70, 2, 2, 50, 61, 2, 61, 2, 1, 2, 16, 51, 2, 2, 2, 4, 71, 2, 2, 50, 61, 2, 61,
  2, 1, 2, 3, 2, 2, 4, 18, 19, 21, 22, 23, 24, 25, 26, 27, 28, 29, 30, 31, 32, 33, 34, 35,
  36, 37, 38, 39, 40, 41, 42, 43, 45, 46, 47, 48, 49, 2, 2, 2, 72, 72, 2, 72, 2, 20, 20, 44,
  1, 73, 73, 73, 1, 18, 19, 21, 22, 23, 24, 25, 26, 27, 28, 29, 30, 31, 32, 33, 34, 35, 36, 37,
  38, 39, 40, 41, 42, 43, 45, 46, 47, 48, 49, 73, 73, 73, 20, 20, 44, 1, 73, 73, 73, 1, 73, 1,
  73, 1, 73, 1, 1, 1, 1, 1, 73, 73, 73, 73, 73, 1, 73, 73, 73, 73, 73, 1, 1, 73, 1, 73,
  1, 73, 1, 1, 73, 1, 1, 1, 73, 73, 73, 73, 73, 73, 1, 73, 73, 1, 73, 73, 73, 1, 1, 1,
  1, 1, 1, 1, 73, 73, 1, 73, 1, 1, 73, 73, 73, 73, 1, 74, 75, 76, 77, 78]

/-- Part of _StdTok_indicies, scanner_utf8.c 2074–3137. -/
def indicies1 : List Nat := [79, 80, 81, 82, 83, 84, 85, 86, 87, 88, 89, 90, 91, 92, 93, 94, 95, 96, 97, 98, 99, 100, 1, 73,
  73, 1, 1, 1, 1, 1, 1, 73, 73, 73, 73, 73, 73, 73, 73, 73, 1, 1, 1, 1, 1, 1, 1, 1,
  1, 73, 73, 73, 73, 73, 73, 73, 73, 73, 73, 1, 1, 1, 1, 1, 1, 1, 1, 73, 73, 73, 73, 73,
  73, 73, 73, 73, 1, 1, 1, 1, 1, 1, 73, 73, 73, 73, 73, 73, 73, 73, 73, 1, 73, 73, 73, 73,
  73, 73, 73, 1, 73, 73, 73, 73, 73, 73, 73, 73, 73, 73, 73, 1, 73, 73, 73, 73, 73, 1, 73, 73,
  73, 73, 73, 73, 73, 1, 1, 1, 1, 1, 1, 1, 73, 73, 73, 73, 73, 73, 73, 73, 1, 73, 73, 73,
  73, 73, 73, 1, 73, 73, 73, 73, 73, 73, 1, 1, 1, 1, 1, 1, 1, 73, 73, 73, 73, 73, 73, 1,
  73, 73, 73, 73, 73, 1, 73, 1, 73, 73, 1, 73, 73, 73, 73, 73, 73, 73, 73, 73, 73, 73, 73, 73,
  1, 73, 73, 73, 73, 1, 73, 1, 73, 73, 73, 1, 73, 73, 73, 73, 1, 101, 102, 103, 104, 105, 106, 107,
  108, 109, 110, 111, 112, 113, 114, 115, 116, 117, 118, 119, 120, 121, 122, 123, 124, 125, 126, 127, 128, 129, 130, 131,
  132, 133, 134, 135, 22, 20, 21, 22, 136, 137, 138, 139, 22, 20, 20, 1, 73, 73, 73, 1, 73, 73, 73, 1,
  1, 1, 73, 1, 1, 1, 73, 1, 73, 1, 73, 1, 73, 1, 1, 1, 1, 1, 73, 1, 1, 1, 1, 1,
  73, 73, 73, 73, 73, 1, 1, 1, 73, 1, 1, 73, 73, 73, 1, 1, 73, 73, 1, 1, 1, 73, 73, 73,
  1, 1, 1, 73, 73, 73, 73, 1, 73, 73, 73, 73, 1, 73, 73, 1, 1, 1, 1, 73, 73, 1, 1, 73,
  73, 1, 73, 73, 73, 1, 73, 73, 1, 73, 73, 1, 1, 73, 73, 1, 73, 73, 1, 1, 1, 73, 73, 73,
  1, 73, 1, 73, 73, 1, 1, 1, 73, 1, 1, 1, 1, 1, 1, 1, 73, 73, 73, 73, 1, 73, 73, 73,
  73, 73, 73, 73, 1, 140, 141, 142, 143, 144, 145, 146, 147, 148, 22, 149, 150, 151, 152, 153, 154, 1, 73, 73,
  1, 73, 1, 73, 73, 73, 73, 73, 73, 73, 73, 73, 73, 73, 1, 73, 73, 73, 1, 1, 73, 73, 1, 1,
  73, 73, 73, 1, 1, 1, 1, 73, 1, 73, 73, 73, 1, 1, 1, 73, 73, 73, 73, 73, 73, 1, 73, 73,
  73, 73, 73, 1, 73, 1, 155, 115, 156, 157, 158, 20, 159, 160, 22, 20, 1, 73, 73, 73, 73, 1, 1, 1,
  73, 1, 1, 73, 73, 73, 1, 1, 1, 73, 73, 1, 161, 1, 22, 20, 1, 73, 20, 162]

/-- Part of _StdTok_indicies, scanner_utf8.c 2074–3137. -/
def indicies2 : List Nat := [1, 20, 1, 73, 22, 163, 22, 164, 165, 166, 167, 20, 168, 169, 170, 171, 22, 162, 172, 173, 174, 175, 22, 20,
  20, 20, 1, 1, 73, 1, 1, 1, 73, 73, 73, 73, 1, 73, 1, 73, 73, 1, 1, 1, 73, 73, 1, 1,
  1, 1, 1, 73, 73, 1, 73, 73, 1, 1, 73, 73, 1, 73, 1, 176, 1, 20, 1, 73, 22, 177, 178, 179,
  180, 181, 37, 182, 183, 184, 185, 186, 187, 20, 188, 189, 190, 191, 192, 20, 1, 1, 73, 1, 73, 1, 73, 73,
  73, 73, 73, 73, 73, 1, 73, 73, 73, 1, 73, 1, 1, 73, 73, 1, 1, 73, 1, 1, 73, 73, 73, 1,
  1, 73, 73, 1, 73, 73, 1, 1, 73, 73, 73, 73, 73, 1, 193, 194, 195, 196, 197, 198, 44, 1, 199, 200,
  22, 201, 202, 203, 204, 205, 206, 207, 208, 22, 20, 209, 210, 211, 212, 1, 73, 73, 73, 73, 73, 1, 1, 1,
  73, 1, 73, 73, 1, 73, 73, 1, 1, 73, 73, 73, 1, 1, 73, 73, 73, 1, 1, 1, 1, 73, 1, 73,
  73, 73, 73, 73, 73, 73, 1, 73, 73, 1, 73, 73, 73, 73, 73, 1, 22, 213, 22, 214, 20, 1, 1, 73,
  1, 73, 22, 215, 216, 217, 218, 219, 220, 221, 222, 223, 224, 225, 20, 1, 1, 73, 1, 1, 1, 1, 1, 1,
  1, 73, 1, 73, 1, 1, 1, 1, 1, 1, 73, 73, 73, 73, 73, 1, 1, 73, 1, 1, 1, 73, 1, 1,
  73, 1, 1, 73, 1, 1, 73, 1, 1, 73, 22, 20, 1, 226, 1, 20, 1, 73, 22, 209, 20, 1, 2, 2,
  2, 2, 2, 53, 54, 55, 56, 57, 58, 59, 60, 2, 2, 228, 52, 2, 52, 2, 227, 229, 1, 230, 230, 230,
  230, 1, 231, 231, 231, 1, 231, 231, 231, 1, 231, 1, 231, 231, 1, 1, 1, 1, 1, 1, 231, 231, 231, 231,
  231, 1, 231, 231, 231, 231, 231, 1, 1, 231, 1, 231, 1, 231, 1, 1, 231, 1, 1, 1, 231, 231, 231, 231,
  231, 231, 1, 231, 231, 1, 231, 231, 231, 1, 1, 1, 1, 1, 1, 1, 231, 231, 1, 231, 1, 1, 231, 231,
  231, 231, 1, 232, 233, 234, 235, 236, 237, 238, 239, 240, 241, 242, 243, 244, 245, 246, 247, 248, 249, 250, 251, 252,
  253, 254, 255, 256, 257, 258, 1, 231, 231, 1, 1, 1, 1, 1, 1, 231, 231, 231, 231, 231, 231, 231, 231, 231,
  1, 1, 1, 1, 1, 1, 1, 1, 1, 231, 231, 231, 231, 231, 231, 231, 231, 231, 231, 1, 1, 1, 1, 1,
  1, 1, 1, 231, 231, 231, 231, 231, 231, 231, 231, 231, 1, 1, 1, 1, 1, 1, 231, 231, 231, 231, 231, 231,
  231, 231, 231, 1, 231, 231, 231, 231, 231, 231, 231, 1, 231, 231, 231, 231, 231, 231, 231, 231]

/-- Part of _StdTok_indicies, scanner_utf8.c 2074–3137. -/
def indicies3 : List Nat := [231, 231, 231, 1, 231, 231, 231, 231, 231, 1, 231, 231, 231, 231, 231, 231, 231, 1, 1, 1, 1, 1, 1, 1,
  231, 231, 231, 231, 231, 231, 231, 231, 1, 231, 231, 231, 231, 231, 231, 1, 231, 231, 231, 231, 231, 231, 1, 1,
  1, 1, 1, 1, 1, 231, 231, 231, 231, 231, 231, 1, 231, 231, 231, 231, 231, 1, 231, 1, 231, 231, 1, 231,
  231, 231, 231, 231, 231, 231, 231, 231, 231, 231, 231, 231, 1, 231, 231, 231, 231, 1, 231, 1, 231, 231, 231, 1,
  231, 231, 231, 231, 1, 259, 260, 261, 262, 264, 265, 266, 267, 268, 269, 270, 271, 272, 273, 274, 276, 277, 278, 279,
  280, 281, 282, 283, 284, 285, 286, 287, 288, 289, 290, 291, 292, 293, 294, 295, 263, 275, 296, 263, 297, 298, 299, 300,
  263, 275, 275, 1, 231, 231, 231, 1, 231, 231, 231, 1, 1, 1, 231, 1, 1, 1, 231, 1, 231, 1, 231, 1,
  231, 1, 1, 1, 1, 1, 231, 1, 1, 1, 1, 1, 231, 231, 231, 231, 231, 1, 1, 1, 231, 1, 1, 231,
  231, 231, 1, 1, 231, 231, 1, 1, 1, 231, 231, 231, 1, 1, 1, 231, 231, 231, 231, 1, 231, 231, 231, 231,
  1, 231, 231, 1, 1, 1, 1, 231, 231, 1, 1, 231, 231, 1, 231, 231, 231, 1, 231, 231, 1, 231, 231, 1,
  1, 231, 231, 1, 231, 231, 1, 1, 1, 231, 231, 231, 1, 231, 1, 231, 231, 1, 1, 1, 231, 1, 1, 1,
  1, 1, 1, 1, 231, 231, 231, 231, 1, 231, 231, 231, 231, 231, 231, 231, 1, 301, 302, 303, 304, 305, 306, 307,
  308, 309, 263, 310, 311, 312, 313, 314, 315, 1, 231, 231, 1, 231, 1, 231, 231, 231, 231, 231, 231, 231, 231, 231,
  231, 231, 1, 231, 231, 231, 1, 1, 231, 231, 1, 1, 231, 231, 231, 1, 1, 1, 1, 231, 1, 231, 231, 231,
  1, 1, 1, 231, 231, 231, 231, 231, 231, 1, 231, 231, 231, 231, 231, 1, 231, 1, 316, 274, 317, 318, 319, 275,
  320, 321, 263, 275, 1, 231, 231, 231, 231, 1, 1, 1, 231, 1, 1, 231, 231, 231, 1, 1, 1, 231, 231, 1,
  322, 1, 263, 275, 1, 231, 275, 323, 1, 275, 1, 231, 263, 324, 263, 325, 326, 327, 328, 275, 329, 330, 331, 332,
  263, 323, 333, 334, 335, 336, 263, 275, 275, 275, 1, 1, 231, 1, 1, 1, 231, 231, 231, 231, 1, 231, 1, 231,
  231, 1, 1, 1, 231, 231, 1, 1, 1, 1, 1, 231, 231, 1, 231, 231, 1, 1, 231, 231, 1, 231, 1, 337,
  1, 275, 1, 231, 263, 338, 339, 340, 341, 342, 343, 344, 345, 346, 347, 348, 349, 275, 350, 351, 352, 353, 354, 275,
  1, 1, 231, 1, 231, 1, 231, 231, 231, 231, 231, 231, 231, 1, 231, 231, 231, 1, 231, 1]

/-- Part of _StdTok_indicies, scanner_utf8.c 2074–3137. -/
def indicies4 : List Nat := [1, 231, 231, 1, 1, 231, 1, 1, 231, 231, 231, 1, 1, 231, 231, 1, 231, 231, 1, 1, 231, 231, 231, 231,
  231, 1, 355, 356, 357, 358, 360, 361, 359, 1, 362, 363, 263, 364, 365, 366, 367, 368, 369, 370, 371, 263, 275, 372,
  373, 374, 375, 1, 231, 231, 231, 231, 231, 1, 1, 1, 231, 1, 231, 231, 1, 231, 231, 1, 1, 231, 231, 231,
  1, 1, 231, 231, 231, 1, 1, 1, 1, 231, 1, 231, 231, 231, 231, 231, 231, 231, 1, 231, 231, 1, 231, 231,
  231, 231, 231, 1, 263, 376, 263, 377, 275, 1, 1, 231, 1, 231, 263, 378, 379, 380, 381, 382, 383, 384, 385, 386,
  387, 388, 275, 1, 1, 231, 1, 1, 1, 1, 1, 1, 1, 231, 1, 231, 1, 1, 1, 1, 1, 1, 231, 231,
  231, 231, 231, 1, 1, 231, 1, 1, 1, 231, 1, 1, 231, 1, 1, 231, 1, 1, 231, 1, 1, 231, 263, 275,
  1, 389, 1, 275, 1, 231, 263, 372, 275, 1, 390, 390, 390, 1, 390, 390, 390, 1, 390, 1, 390, 390, 1, 1,
  1, 1, 1, 1, 390, 390, 390, 390, 390, 1, 390, 390, 390, 390, 390, 1, 1, 390, 1, 390, 1, 390, 1, 1,
  390, 1, 1, 1, 390, 390, 390, 390, 390, 390, 1, 390, 390, 1, 390, 390, 390, 1, 1, 1, 1, 1, 1, 1,
  390, 390, 1, 390, 1, 1, 390, 390, 390, 390, 1, 391, 392, 393, 394, 395, 396, 397, 398, 399, 400, 401, 402, 403,
  404, 405, 406, 407, 408, 409, 410, 411, 412, 413, 414, 415, 416, 417, 1, 390, 390, 1, 1, 1, 1, 1, 1, 390,
  390, 390, 390, 390, 390, 390, 390, 390, 1, 1, 1, 1, 1, 1, 1, 1, 1, 390, 390, 390, 390, 390, 390, 390,
  390, 390, 390, 1, 1, 1, 1, 1, 1, 1, 1, 390, 390, 390, 390, 390, 390, 390, 390, 390, 1, 1, 1, 1,
  1, 1, 390, 390, 390, 390, 390, 390, 390, 390, 390, 1, 390, 390, 390, 390, 390, 390, 390, 1, 390, 390, 390, 390,
  390, 390, 390, 390, 390, 390, 390, 1, 390, 390, 390, 390, 390, 1, 390, 390, 390, 390, 390, 390, 390, 1, 1, 1,
  1, 1, 1, 1, 390, 390, 390, 390, 390, 390, 390, 390, 1, 390, 390, 390, 390, 390, 390, 1, 390, 390, 390, 390,
  390, 390, 1, 1, 1, 1, 1, 1, 1, 390, 390, 390, 390, 390, 390, 1, 390, 390, 390, 390, 390, 1, 390, 1,
  390, 390, 1, 390, 390, 390, 390, 390, 390, 390, 390, 390, 390, 390, 390, 390, 1, 390, 390, 390, 390, 1, 390, 1,
  390, 390, 390, 1, 390, 390, 390, 390, 1, 418, 419, 420, 421, 423, 424, 425, 426, 427, 428, 429, 430, 431, 432, 433,
  435, 436, 437, 438, 439, 440, 441, 442, 443, 444, 445, 446, 447, 448, 449, 450, 451, 452, 453, 454]

/-- Part of _StdTok_indicies, scanner_utf8.c 2074–3137. -/
def indicies5 : List Nat := [422, 434, 455, 422, 456, 457, 458, 459, 422, 434, 434, 1, 390, 390, 390, 1, 390, 390, 390, 1, 1, 1, 390, 1,
  1, 1, 390, 1, 390, 1, 390, 1, 390, 1, 1, 1, 1, 1, 390, 1, 1, 1, 1, 1, 390, 390, 390, 390,
  390, 1, 1, 1, 390, 1, 1, 390, 390, 390, 1, 1, 390, 390, 1, 1, 1, 390, 390, 390, 1, 1, 1, 390,
  390, 390, 390, 1, 390, 390, 390, 390, 1, 390, 390, 1, 1, 1, 1, 390, 390, 1, 1, 390, 390, 1, 390, 390,
  390, 1, 390, 390, 1, 390, 390, 1, 1, 390, 390, 1, 390, 390, 1, 1, 1, 390, 390, 390, 1, 390, 1, 390,
  390, 1, 1, 1, 390, 1, 1, 1, 1, 1, 1, 1, 390, 390, 390, 390, 1, 390, 390, 390, 390, 390, 390, 390,
  1, 460, 461, 462, 463, 464, 465, 466, 467, 468, 422, 469, 470, 471, 472, 473, 474, 1, 390, 390, 1, 390, 1, 390,
  390, 390, 390, 390, 390, 390, 390, 390, 390, 390, 1, 390, 390, 390, 1, 1, 390, 390, 1, 1, 390, 390, 390, 1,
  1, 1, 1, 390, 1, 390, 390, 390, 1, 1, 1, 390, 390, 390, 390, 390, 390, 1, 390, 390, 390, 390, 390, 1,
  390, 1, 475, 433, 476, 477, 478, 434, 479, 480, 422, 434, 1, 390, 390, 390, 390, 1, 1, 1, 390, 1, 1, 390,
  390, 390, 1, 1, 1, 390, 390, 1, 481, 1, 422, 434, 1, 390, 434, 482, 1, 434, 1, 390, 422, 483, 422, 484,
  485, 486, 487, 434, 488, 489, 490, 491, 422, 482, 492, 493, 494, 495, 422, 434, 434, 434, 1, 1, 390, 1, 1, 1,
  390, 390, 390, 390, 1, 390, 1, 390, 390, 1, 1, 1, 390, 390, 1, 1, 1, 1, 1, 390, 390, 1, 390, 390,
  1, 1, 390, 390, 1, 390, 1, 496, 1, 434, 1, 390, 422, 497, 498, 499, 500, 501, 502, 503, 504, 505, 506, 507,
  508, 434, 509, 510, 511, 512, 513, 434, 1, 1, 390, 1, 390, 1, 390, 390, 390, 390, 390, 390, 390, 1, 390, 390,
  390, 1, 390, 1, 1, 390, 390, 1, 1, 390, 1, 1, 390, 390, 390, 1, 1, 390, 390, 1, 390, 390, 1, 1,
  390, 390, 390, 390, 390, 1, 514, 515, 516, 517, 519, 520, 518, 1, 521, 522, 422, 523, 524, 525, 526, 527, 528, 529,
  530, 422, 434, 531, 532, 533, 534, 1, 390, 390, 390, 390, 390, 1, 1, 1, 390, 1, 390, 390, 1, 390, 390, 1,
  1, 390, 390, 390, 1, 1, 390, 390, 390, 1, 1, 1, 1, 390, 1, 390, 390, 390, 390, 390, 390, 390, 1, 390,
  390, 1, 390, 390, 390, 390, 390, 1, 422, 535, 422, 536, 434, 1, 1, 390, 1, 390, 422, 537, 538, 539, 540, 541,
  542, 543, 544, 545, 546, 547, 434, 1, 1, 390, 1, 1, 1, 1, 1, 1, 1, 390, 1, 390]

/-- Part of _StdTok_indicies, scanner_utf8.c 2074–3137. -/
def indicies6 : List Nat := [1, 1, 1, 1, 1, 1, 390, 390, 390, 390, 390, 1, 1, 390, 1, 1, 1, 390, 1, 1, 390, 1, 1, 390,
  1, 1, 390, 1, 1, 390, 422, 434, 1, 548, 1, 434, 1, 390, 422, 531, 434, 1, 2, 2, 2, 2, 2, 550,
  551, 552, 553, 554, 555, 556, 557, 558, 559, 561, 562, 563, 564, 565, 566, 567, 568, 569, 570, 571, 572, 573, 574, 575,
  576, 577, 578, 579, 580, 581, 582, 583, 585, 586, 587, 588, 589, 2, 2, 50, 549, 2, 549, 2, 560, 560, 584, 1,
  590, 590, 590, 1, 558, 559, 561, 562, 563, 564, 565, 566, 567, 568, 569, 570, 571, 572, 573, 574, 575, 576, 577, 578,
  579, 580, 581, 582, 583, 585, 586, 587, 588, 589, 590, 590, 560, 560, 584, 1, 590, 590, 590, 1, 590, 1, 590, 590,
  1, 1, 1, 1, 1, 1, 590, 590, 590, 590, 590, 1, 590, 590, 590, 590, 590, 1, 1, 590, 1, 590, 1, 590,
  1, 1, 590, 1, 1, 1, 590, 590, 590, 590, 590, 590, 1, 590, 590, 1, 590, 590, 590, 1, 1, 1, 1, 1,
  1, 1, 590, 590, 1, 590, 1, 1, 590, 590, 590, 590, 1, 591, 592, 593, 594, 595, 596, 597, 598, 599, 600, 601,
  602, 603, 604, 605, 606, 607, 608, 609, 610, 611, 612, 613, 614, 615, 616, 617, 1, 590, 590, 1, 1, 1, 1, 1,
  1, 590, 590, 590, 590, 590, 590, 590, 590, 590, 1, 1, 1, 1, 1, 1, 1, 1, 1, 590, 590, 590, 590, 590,
  590, 590, 590, 590, 590, 1, 1, 1, 1, 1, 1, 1, 1, 590, 590, 590, 590, 590, 590, 590, 590, 590, 1, 1,
  1, 1, 1, 1, 590, 590, 590, 590, 590, 590, 590, 590, 590, 1, 590, 590, 590, 590, 590, 590, 590, 1, 590, 590,
  590, 590, 590, 590, 590, 590, 590, 590, 590, 1, 590, 590, 590, 590, 590, 1, 590, 590, 590, 590, 590, 590, 590, 1,
  1, 1, 1, 1, 1, 1, 590, 590, 590, 590, 590, 590, 590, 590, 1, 590, 590, 590, 590, 590, 590, 1, 590, 590,
  590, 590, 590, 590, 1, 1, 1, 1, 1, 1, 1, 590, 590, 590, 590, 590, 590, 1, 590, 590, 590, 590, 590, 1,
  590, 1, 590, 590, 1, 590, 590, 590, 590, 590, 590, 590, 590, 590, 590, 590, 590, 590, 1, 590, 590, 590, 590, 1,
  590, 1, 590, 590, 590, 1, 590, 590, 590, 590, 1, 618, 619, 620, 621, 622, 623, 624, 625, 626, 627, 628, 629, 630,
  631, 632, 633, 634, 635, 636, 637, 638, 639, 640, 641, 642, 643, 644, 645, 646, 647, 648, 649, 650, 651, 652, 562, 560,
  561, 562, 653, 654, 655, 656, 562, 560, 560, 1, 590, 590, 590, 1, 590, 590, 590, 1, 1, 1, 590, 1, 1, 1,
  590, 1, 590, 1, 590, 1, 590, 1, 1, 1, 1, 1, 590, 1, 1, 1, 1, 1, 590, 590]

/-- Part of _StdTok_indicies, scanner_utf8.c 2074–3137. -/
def indicies7 : List Nat := [590, 590, 590, 1, 1, 1, 590, 1, 1, 590, 590, 590, 1, 1, 590, 590, 1, 1, 1, 590, 590, 590, 1, 1,
  1, 590, 590, 590, 590, 1, 590, 590, 590, 590, 1, 590, 590, 1, 1, 1, 1, 590, 590, 1, 1, 590, 590, 1,
  590, 590, 590, 1, 590, 590, 1, 590, 590, 1, 1, 590, 590, 1, 590, 590, 1, 1, 1, 590, 590, 590, 1, 590,
  1, 590, 590, 1, 1, 1, 590, 1, 1, 1, 1, 1, 1, 1, 590, 590, 590, 590, 1, 590, 590, 590, 590, 590,
  590, 590, 1, 657, 658, 659, 660, 661, 662, 663, 664, 665, 562, 666, 667, 668, 669, 670, 671, 1, 590, 590, 1, 590,
  1, 590, 590, 590, 590, 590, 590, 590, 590, 590, 590, 590, 1, 590, 590, 590, 1, 1, 590, 590, 1, 1, 590, 590,
  590, 1, 1, 1, 1, 590, 1, 590, 590, 590, 1, 1, 1, 590, 590, 590, 590, 590, 590, 1, 590, 590, 590, 590,
  590, 1, 590, 1, 672, 632, 673, 674, 675, 560, 676, 677, 562, 560, 1, 590, 590, 590, 590, 1, 1, 1, 590, 1,
  1, 590, 590, 590, 1, 1, 1, 590, 590, 1, 678, 1, 562, 560, 1, 590, 560, 679, 1, 560, 1, 590, 562, 680,
  562, 681, 682, 683, 684, 560, 685, 686, 687, 688, 562, 679, 689, 690, 691, 692, 562, 560, 560, 560, 1, 1, 590, 1,
  1, 1, 590, 590, 590, 590, 1, 590, 1, 590, 590, 1, 1, 1, 590, 590, 1, 1, 1, 1, 1, 590, 590, 1,
  590, 590, 1, 1, 590, 590, 1, 590, 1, 693, 1, 560, 1, 590, 562, 694, 695, 696, 697, 698, 577, 699, 700, 701,
  702, 703, 704, 560, 705, 706, 707, 708, 709, 560, 1, 1, 590, 1, 590, 1, 590, 590, 590, 590, 590, 590, 590, 1,
  590, 590, 590, 1, 590, 1, 1, 590, 590, 1, 1, 590, 1, 1, 590, 590, 590, 1, 1, 590, 590, 1, 590, 590,
  1, 1, 590, 590, 590, 590, 590, 1, 710, 711, 712, 713, 714, 715, 584, 1, 716, 717, 562, 718, 719, 720, 721, 722,
  723, 724, 725, 562, 560, 726, 727, 728, 729, 1, 590, 590, 590, 590, 590, 1, 1, 1, 590, 1, 590, 590, 1, 590,
  590, 1, 1, 590, 590, 590, 1, 1, 590, 590, 590, 1, 1, 1, 1, 590, 1, 590, 590, 590, 590, 590, 590, 590,
  1, 590, 590, 1, 590, 590, 590, 590, 590, 1, 562, 730, 562, 731, 560, 1, 1, 590, 1, 590, 562, 732, 733, 734,
  735, 736, 737, 738, 739, 740, 741, 742, 560, 1, 1, 590, 1, 1, 1, 1, 1, 1, 1, 590, 1, 590, 1, 1,
  1, 1, 1, 1, 590, 590, 590, 590, 590, 1, 1, 590, 1, 1, 1, 590, 1, 1, 590, 1, 1, 590, 1, 1,
  590, 1, 1, 590, 562, 560, 1, 743, 1, 560, 1, 590, 562, 726, 560, 1, 745, 745, 745, 744]

/-- Part of _StdTok_indicies, scanner_utf8.c 2074–3137. -/
def indicies8 : List Nat := [745, 745, 745, 744, 745, 744, 745, 745, 744, 744, 744, 744, 744, 744, 745, 745, 745, 745, 745, 744, 745, 745, 745, 745,
  745, 744, 744, 745, 744, 745, 744, 745, 744, 744, 745, 744, 744, 744, 745, 745, 745, 745, 745, 745, 744, 745, 745, 744,
  745, 745, 745, 744, 744, 744, 744, 744, 744, 744, 745, 745, 744, 745, 744, 744, 745, 745, 745, 745, 744, 746, 747, 748,
  749, 750, 751, 752, 753, 754, 755, 756, 757, 758, 759, 760, 761, 762, 763, 764, 765, 766, 767, 768, 769, 770, 771, 772,
  744, 745, 745, 744, 744, 744, 744, 744, 744, 745, 745, 745, 745, 745, 745, 745, 745, 745, 744, 744, 744, 744, 744, 744,
  744, 744, 744, 745, 745, 745, 745, 745, 745, 745, 745, 745, 745, 744, 744, 744, 744, 744, 744, 744, 744, 745, 745, 745,
  745, 745, 745, 745, 745, 745, 744, 744, 744, 744, 744, 744, 745, 745, 745, 745, 745, 745, 745, 745, 745, 744, 745, 745,
  745, 745, 745, 745, 745, 744, 745, 745, 745, 745, 745, 745, 745, 745, 745, 745, 745, 744, 745, 745, 745, 745, 745, 744,
  745, 745, 745, 745, 745, 745, 745, 744, 744, 744, 744, 744, 744, 744, 745, 745, 745, 745, 745, 745, 745, 745, 744, 745,
  745, 745, 745, 745, 745, 744, 745, 745, 745, 745, 745, 745, 744, 744, 744, 744, 744, 744, 744, 745, 745, 745, 745, 745,
  745, 744, 745, 745, 745, 745, 745, 744, 745, 744, 745, 745, 744, 745, 745, 745, 745, 745, 745, 745, 745, 745, 745, 745,
  745, 745, 744, 745, 745, 745, 745, 744, 745, 744, 745, 745, 745, 744, 745, 745, 745, 745, 744, 773, 774, 775, 776, 778,
  779, 780, 781, 782, 783, 784, 785, 786, 787, 788, 790, 791, 792, 793, 794, 795, 796, 797, 798, 799, 800, 801, 802, 803,
  804, 805, 806, 807, 808, 809, 777, 789, 810, 777, 811, 812, 813, 814, 777, 789, 789, 744, 745, 745, 745, 744, 745, 745,
  745, 744, 744, 744, 745, 744, 744, 744, 745, 744, 745, 744, 745, 744, 745, 744, 744, 744, 744, 744, 745, 744, 744, 744,
  744, 744, 745, 745, 745, 745, 745, 744, 744, 744, 745, 744, 744, 745, 745, 745, 744, 744, 745, 745, 744, 744, 744, 745,
  745, 745, 744, 744, 744, 745, 745, 745, 745, 744, 745, 745, 745, 745, 744, 745, 745, 744, 744, 744, 744, 745, 745, 744,
  744, 745, 745, 744, 745, 745, 745, 744, 745, 745, 744, 745, 745, 744, 744, 745, 745, 744, 745, 745, 744, 744, 744, 745,
  745, 745, 744, 745, 744, 745, 745, 744, 744, 744, 745, 744, 744, 744, 744, 744, 744, 744, 745, 745, 745, 745, 744, 745,
  745, 745, 745, 745, 745, 745, 744, 815, 816, 817, 818, 819, 820, 821, 822, 823, 777, 824, 825, 826, 827, 828, 829, 744,
  745, 745, 744, 745, 744, 745, 745, 745, 745, 745, 745, 745, 745, 745, 745, 745, 744, 745, 745, 745]

/-- Part of _StdTok_indicies, scanner_utf8.c 2074–3137. -/
def indicies9 : List Nat := [744, 744, 745, 745, 744, 744, 745, 745, 745, 744, 744, 744, 744, 745, 744, 745, 745, 745, 744, 744, 744, 745, 745, 745,
  745, 745, 745, 744, 745, 745, 745, 745, 745, 744, 745, 744, 830, 788, 831, 832, 833, 789, 834, 835, 777, 789, 744, 745,
  745, 745, 745, 744, 744, 744, 745, 744, 744, 745, 745, 745, 744, 744, 744, 745, 745, 744, 836, 744, 777, 789, 744, 745,
  789, 837, 744, 789, 744, 745, 777, 838, 777, 839, 840, 841, 842, 789, 843, 844, 845, 846, 777, 837, 847, 848, 849, 850,
  777, 789, 789, 789, 744, 744, 745, 744, 744, 744, 745, 745, 745, 745, 744, 745, 744, 745, 745, 744, 744, 744, 745, 745,
  744, 744, 744, 744, 744, 745, 745, 744, 745, 745, 744, 744, 745, 745, 744, 745, 744, 851, 744, 789, 744, 745, 777, 852,
  853, 854, 855, 856, 857, 858, 859, 860, 861, 862, 863, 789, 864, 865, 866, 867, 868, 789, 744, 744, 745, 744, 745, 744,
  745, 745, 745, 745, 745, 745, 745, 744, 745, 745, 745, 744, 745, 744, 744, 745, 745, 744, 744, 745, 744, 744, 745, 745,
  745, 744, 744, 745, 745, 744, 745, 745, 744, 744, 745, 745, 745, 745, 745, 744, 869, 870, 871, 872, 874, 875, 873, 744,
  876, 877, 777, 878, 879, 880, 881, 882, 883, 884, 885, 777, 789, 886, 887, 888, 889, 744, 745, 745, 745, 745, 745, 744,
  744, 744, 745, 744, 745, 745, 744, 745, 745, 744, 744, 745, 745, 745, 744, 744, 745, 745, 745, 744, 744, 744, 744, 745,
  744, 745, 745, 745, 745, 745, 745, 745, 744, 745, 745, 744, 745, 745, 745, 745, 745, 744, 777, 890, 777, 891, 789, 744,
  744, 745, 744, 745, 777, 892, 893, 894, 895, 896, 897, 898, 899, 900, 901, 902, 789, 744, 744, 745, 744, 744, 744, 744,
  744, 744, 744, 745, 744, 745, 744, 744, 744, 744, 744, 744, 745, 745, 745, 745, 745, 744, 744, 745, 744, 744, 744, 745,
  744, 744, 745, 744, 744, 745, 744, 744, 745, 744, 744, 745, 777, 789, 744, 903, 744, 789, 744, 745, 777, 886, 789, 744,
  904, 904, 904, 744, 904, 904, 904, 744, 904, 744, 904, 904, 744, 744, 744, 744, 744, 744, 904, 904, 904, 904, 904, 744,
  904, 904, 904, 904, 904, 744, 744, 904, 744, 904, 744, 904, 744, 744, 904, 744, 744, 744, 904, 904, 904, 904, 904, 904,
  744, 904, 904, 744, 904, 904, 904, 744, 744, 744, 744, 744, 744, 744, 904, 904, 744, 904, 744, 744, 904, 904, 904, 904,
  744, 905, 906, 907, 908, 909, 910, 911, 912, 913, 914, 915, 916, 917, 918, 919, 920, 921, 922, 923, 924, 925, 926, 927,
  928, 929, 930, 931, 744, 904, 904, 744, 744, 744, 744, 744, 744, 904, 904, 904, 904, 904, 904, 904, 904, 904, 744, 744,
  744, 744, 744, 744, 744, 744, 744, 904, 904, 904, 904, 904, 904, 904, 904, 904, 904, 744, 744, 744]

/-- Part of _StdTok_indicies, scanner_utf8.c 2074–3137. -/
def indicies10 : List Nat := [744, 744, 744, 744, 744, 904, 904, 904, 904, 904, 904, 904, 904, 904, 744, 744, 744, 744, 744, 744, 904, 904, 904, 904,
  904, 904, 904, 904, 904, 744, 904, 904, 904, 904, 904, 904, 904, 744, 904, 904, 904, 904, 904, 904, 904, 904, 904, 904,
  904, 744, 904, 904, 904, 904, 904, 744, 904, 904, 904, 904, 904, 904, 904, 744, 744, 744, 744, 744, 744, 744, 904, 904,
  904, 904, 904, 904, 904, 904, 744, 904, 904, 904, 904, 904, 904, 744, 904, 904, 904, 904, 904, 904, 744, 744, 744, 744,
  744, 744, 744, 904, 904, 904, 904, 904, 904, 744, 904, 904, 904, 904, 904, 744, 904, 744, 904, 904, 744, 904, 904, 904,
  904, 904, 904, 904, 904, 904, 904, 904, 904, 904, 744, 904, 904, 904, 904, 744, 904, 744, 904, 904, 904, 744, 904, 904,
  904, 904, 744, 932, 933, 934, 935, 937, 938, 939, 940, 941, 942, 943, 944, 945, 946, 947, 949, 950, 951, 952, 953, 954,
  955, 956, 957, 958, 959, 960, 961, 962, 963, 964, 965, 966, 967, 968, 936, 948, 969, 936, 970, 971, 972, 973, 936, 948,
  948, 744, 904, 904, 904, 744, 904, 904, 904, 744, 744, 744, 904, 744, 744, 744, 904, 744, 904, 744, 904, 744, 904, 744,
  744, 744, 744, 744, 904, 744, 744, 744, 744, 744, 904, 904, 904, 904, 904, 744, 744, 744, 904, 744, 744, 904, 904, 904,
  744, 744, 904, 904, 744, 744, 744, 904, 904, 904, 744, 744, 744, 904, 904, 904, 904, 744, 904, 904, 904, 904, 744, 904,
  904, 744, 744, 744, 744, 904, 904, 744, 744, 904, 904, 744, 904, 904, 904, 744, 904, 904, 744, 904, 904, 744, 744, 904,
  904, 744, 904, 904, 744, 744, 744, 904, 904, 904, 744, 904, 744, 904, 904, 744, 744, 744, 904, 744, 744, 744, 744, 744,
  744, 744, 904, 904, 904, 904, 744, 904, 904, 904, 904, 904, 904, 904, 744, 974, 975, 976, 977, 978, 979, 980, 981, 982,
  936, 983, 984, 985, 986, 987, 988, 744, 904, 904, 744, 904, 744, 904, 904, 904, 904, 904, 904, 904, 904, 904, 904, 904,
  744, 904, 904, 904, 744, 744, 904, 904, 744, 744, 904, 904, 904, 744, 744, 744, 744, 904, 744, 904, 904, 904, 744, 744,
  744, 904, 904, 904, 904, 904, 904, 744, 904, 904, 904, 904, 904, 744, 904, 744, 989, 947, 990, 991, 992, 948, 993, 994,
  936, 948, 744, 904, 904, 904, 904, 744, 744, 744, 904, 744, 744, 904, 904, 904, 744, 744, 744, 904, 904, 744, 995, 744,
  936, 948, 744, 904, 948, 996, 744, 948, 744, 904, 936, 997, 936, 998, 999, 1000, 1001, 948, 1002, 1003, 1004, 1005, 936, 996,
  1006, 1007, 1008, 1009, 936, 948, 948, 948, 744, 744, 904, 744, 744, 744, 904, 904, 904, 904, 744, 904, 744, 904, 904, 744,
  744, 744, 904, 904, 744, 744, 744, 744, 744, 904, 904, 744, 904, 904, 744, 744, 904, 904, 744, 904]

/-- Part of _StdTok_indicies, scanner_utf8.c 2074–3137. -/
def indicies11 : List Nat := [744, 1010, 744, 948, 744, 904, 936, 1011, 1012, 1013, 1014, 1015, 1016, 1017, 1018, 1019, 1020, 1021, 1022, 948, 1023, 1024, 1025, 1026,
  1027, 948, 744, 744, 904, 744, 904, 744, 904, 904, 904, 904, 904, 904, 904, 744, 904, 904, 904, 744, 904, 744, 744, 904,
  904, 744, 744, 904, 744, 744, 904, 904, 904, 744, 744, 904, 904, 744, 904, 904, 744, 744, 904, 904, 904, 904, 904, 744,
  1028, 1029, 1030, 1031, 1033, 1034, 1032, 744, 1035, 1036, 936, 1037, 1038, 1039, 1040, 1041, 1042, 1043, 1044, 936, 948, 1045, 1046, 1047,
  1048, 744, 904, 904, 904, 904, 904, 744, 744, 744, 904, 744, 904, 904, 744, 904, 904, 744, 744, 904, 904, 904, 744, 744,
  904, 904, 904, 744, 744, 744, 744, 904, 744, 904, 904, 904, 904, 904, 904, 904, 744, 904, 904, 744, 904, 904, 904, 904,
  904, 744, 936, 1049, 936, 1050, 948, 744, 744, 904, 744, 904, 936, 1051, 1052, 1053, 1054, 1055, 1056, 1057, 1058, 1059, 1060, 1061,
  948, 744, 744, 904, 744, 744, 744, 744, 744, 744, 744, 904, 744, 904, 744, 744, 744, 744, 744, 744, 904, 904, 904, 904,
  904, 744, 744, 904, 744, 744, 744, 904, 744, 744, 904, 744, 744, 904, 744, 744, 904, 744, 744, 904, 936, 948, 744, 1062,
  744, 948, 744, 904, 936, 1045, 948, 744, 1063, 744, 1064, 1065, 230, 230, 1064, 230, 1064, 1064, 1064, 744, 1066, 1066, 10, 10,
  10, 10, 10, 10, 1066, 1066, 1066, 1066, 1066, 1066, 1066, 1066, 1066, 10, 10, 10, 10, 10, 10, 10, 10, 10, 1066, 1066,
  1066, 1066, 1066, 1066, 1066, 1066, 1066, 1066, 10, 10, 10, 10, 10, 10, 10, 10, 1066, 1066, 1066, 1066, 1066, 1066, 1066, 1066,
  1066, 10, 10, 10, 10, 10, 10, 1066, 1066, 1066, 1066, 1066, 1066, 1066, 1066, 1066, 10, 1066, 1066, 1066, 1066, 1066, 1066, 1066,
  10, 1066, 1066, 1066, 1066, 1066, 1066, 1066, 1066, 1066, 1066, 1066, 10, 1066, 1066, 1066, 1066, 1066, 10, 1066, 1066, 1066, 1066, 1066,
  1066, 1066, 10, 10, 10, 10, 10, 10, 10, 1066, 1066, 1066, 1066, 1066, 1066, 1066, 1066, 10, 1066, 1066, 1066, 1066, 1066, 1066,
  10, 1066, 1066, 1066, 1066, 1066, 1066, 10, 10, 10, 10, 10, 10, 10, 1066, 1066, 1066, 1066, 1066, 1066, 10, 1066, 1066, 1066,
  1066, 1066, 10, 1066, 10, 1066, 1066, 10, 1066, 1066, 1066, 1066, 1066, 1066, 1066, 1066, 1066, 1066, 1066, 1066, 1066, 10, 1066, 1066,
  1066, 1066, 10, 1066, 10, 1066, 1066, 1066, 10, 1066, 1066, 1066, 1066, 10, 1066, 1066, 1066, 10, 1066, 1066, 1066, 10, 10, 10,
  1066, 10, 10, 10, 1066, 1066, 10, 10, 1066, 10, 1066, 10, 1066, 10, 10, 10, 10, 10, 1066, 10, 10, 10, 10, 10,
  1066, 1066, 1066, 1066, 1066, 10, 10, 10, 1066, 10, 10, 1066, 1066, 1066, 10, 10, 1066, 1066, 10, 1066, 10, 10, 1066, 1066,
  1066, 10, 10, 10, 1066, 1066, 1066, 1066, 10, 1066, 1066, 1066, 1066, 10, 1066, 1066, 10, 10, 10, 10]

/-- Part of _StdTok_indicies, scanner_utf8.c 2074–3137. -/
def indicies12 : List Nat := [1066, 1066, 10, 10, 1066, 1066, 10, 1066, 1066, 1066, 10, 1066, 1066, 10, 1066, 1066, 10, 10, 1066, 1066, 10, 1066, 1066, 10,
  10, 10, 1066, 1066, 1066, 10, 1066, 10, 1066, 1066, 10, 10, 1066, 10, 10, 1066, 10, 10, 10, 10, 10, 10, 10, 1066,
  1066, 1066, 1066, 10, 1066, 1066, 1066, 1066, 1066, 1066, 1066, 10, 1066, 1066, 10, 1066, 10, 1066, 1066, 1066, 1066, 1066, 1066, 1066,
  1066, 1066, 1066, 1066, 10, 1066, 1066, 1066, 10, 10, 1066, 1066, 10, 10, 1066, 1066, 1066, 10, 10, 10, 10, 1066, 10, 1066,
  1066, 1066, 10, 10, 10, 1066, 1066, 1066, 1066, 1066, 1066, 10, 1066, 1066, 1066, 1066, 1066, 10, 1066, 10, 1066, 1066, 1066, 1066,
  10, 10, 10, 1066, 10, 10, 1066, 1066, 1066, 10, 10, 10, 1066, 1066, 10, 10, 1066, 10, 1066, 10, 1066, 10, 10, 10,
  1066, 1066, 1066, 1066, 10, 1066, 10, 1066, 1066, 10, 10, 10, 1066, 1066, 10, 10, 10, 10, 10, 1066, 1066, 10, 1066, 1066,
  10, 10, 1066, 1066, 10, 1066, 10, 10, 1066, 10, 1066, 10, 1066, 10, 1066, 1066, 1066, 1066, 1066, 1066, 1066, 10, 1066, 1066,
  1066, 10, 10, 1066, 1066, 10, 10, 1066, 1066, 10, 10, 1066, 10, 10, 1066, 1066, 1066, 10, 10, 1066, 1066, 10, 1066, 1066,
  10, 10, 1066, 1066, 1066, 1066, 1066, 10, 1067, 1068, 1069, 1070, 1071, 1072, 1073, 1074, 1075, 1076, 1077, 1069, 1078, 1079, 1080, 1081,
  1082, 10, 1066, 1066, 1066, 1066, 1066, 10, 10, 10, 1066, 10, 1066, 1066, 10, 1066, 1066, 10, 10, 1066, 1066, 1066, 10, 10,
  1066, 1066, 1066, 10, 10, 10, 10, 1066, 10, 1066, 1066, 1066, 1066, 1066, 1066, 1066, 10, 1066, 1066, 10, 1066, 1066, 1066, 1066,
  1066, 10, 1069, 1083, 1069, 1084, 1078, 10, 10, 1066, 10, 1066, 1069, 1085, 1086, 1087, 1088, 1089, 1090, 1091, 1092, 1093, 1094, 1095,
  1078, 10, 10, 1066, 10, 10, 10, 10, 10, 10, 10, 1066, 10, 1066, 10, 10, 10, 10, 10, 10, 1066, 1066, 1066, 1066,
  1066, 10, 10, 1066, 10, 10, 10, 1066, 10, 10, 1066, 10, 10, 1066, 10, 10, 1066, 10, 10, 1066, 1069, 1078, 10, 1078,
  1096, 10, 1078, 10, 1066, 1069, 1079, 1078, 10, 1097, 1098, 1101, 1100, 1102, 1102, 1100, 1100, 1100, 1105, 1106, 1107, 1108, 1110, 1111,
  1112, 1113, 1114, 1115, 1116, 1117, 1118, 1119, 1120, 1121, 1122, 1123, 1124, 1125, 1126, 1127, 1128, 1129, 1130, 1131, 1132, 1134, 1135, 1136,
  1137, 1138, 1100, 1103, 1104, 1100, 1104, 1100, 1109, 1109, 1133, 1099, 2, 3, 2, 4, 2, 2, 2, 2, 2, 1, 5, 1140,
  5, 5, 5, 5, 5, 5, 5, 1139, 12, 13, 11, 11, 11, 11, 1141, 2, 3, 2, 4, 2, 2, 2, 1142, 2,
  2, 1141, 2, 1144, 2, 4, 2, 2, 2, 1142, 2, 2, 1143, 2, 3, 2, 4, 2, 2, 2, 15, 2, 2, 1145,
  2, 1147, 1148, 2, 1149, 2, 2, 4, 1151, 18, 19, 21, 22, 23, 24, 25, 26, 27, 28, 29]

/-- Part of _StdTok_indicies, scanner_utf8.c 2074–3137. -/
def indicies13 : List Nat := [30, 31, 32, 33, 34, 35, 36, 37, 38, 39, 40, 41, 42, 43, 45, 46, 47, 48, 49, 2, 2, 1103, 1150, 2,
  1150, 2, 20, 20, 44, 1146, 2, 16, 51, 1153, 1154, 2, 2, 4, 2, 2, 50, 50, 2, 50, 2, 1152, 1155, 63,
  1152, 2, 16, 51, 1153, 1154, 2, 2, 4, 61, 2, 2, 50, 50, 2, 50, 2, 1152, 2, 16, 51, 1153, 1154, 2,
  2, 4, 61, 2, 2, 50, 50, 2, 50, 2, 1152, 2, 16, 51, 1153, 1154, 2, 2, 4, 61, 2, 2, 50, 50,
  2, 50, 2, 1152, 2, 16, 51, 1153, 1154, 2, 2, 4, 61, 2, 2, 50, 50, 2, 50, 2, 1152, 2, 16, 51,
  1153, 1154, 2, 2, 4, 1156, 61, 2, 2, 50, 50, 2, 50, 2, 1152, 2, 16, 51, 1153, 1154, 2, 2, 4, 61,
  2, 2, 50, 50, 2, 50, 2, 1152, 2, 16, 51, 1153, 1154, 2, 2, 4, 61, 2, 2, 50, 50, 2, 50, 2,
  1152, 2, 16, 51, 1153, 1154, 2, 2, 4, 61, 2, 2, 50, 50, 2, 50, 2, 1152, 2, 1147, 51, 2, 2, 2,
  4, 1151, 18, 19, 21, 22, 23, 24, 25, 26, 27, 28, 29, 30, 31, 32, 33, 34, 35, 36, 37, 38, 39, 40,
  41, 42, 43, 45, 46, 47, 48, 49, 2, 2, 17, 17, 2, 17, 2, 20, 20, 44, 1146, 2, 1151, 3, 2, 2,
  2, 4, 1151, 18, 19, 21, 22, 23, 24, 25, 26, 27, 28, 29, 30, 31, 32, 33, 34, 35, 36, 37, 38, 39,
  40, 41, 42, 43, 45, 46, 47, 48, 49, 2, 2, 72, 72, 2, 72, 2, 20, 20, 44, 1146, 1157, 1157, 18, 19,
  21, 22, 23, 24, 25, 26, 27, 28, 29, 30, 31, 32, 33, 34, 35, 36, 37, 38, 39, 40, 41, 42, 43, 45,
  46, 47, 48, 49, 73, 73, 73, 20, 20, 44, 1146, 2, 16, 51, 2, 2, 2, 4, 2, 2, 228, 50, 2, 50,
  2, 1145, 1158, 230, 230, 230, 230, 1152, 2, 1147, 51, 2, 1149, 2, 2, 4, 1151, 18, 19, 21, 22, 23, 24, 25,
  26, 27, 28, 29, 30, 31, 32, 33, 34, 35, 36, 37, 38, 39, 40, 41, 42, 43, 45, 46, 47, 48, 49, 2,
  2, 1150, 1150, 2, 1150, 2, 20, 20, 44, 1146, 2, 1160, 1161, 1147, 1162, 2, 1149, 2, 2, 1164, 1151, 1166, 1167, 969,
  936, 1168, 1169, 1170, 1171, 1172, 1173, 1174, 1175, 1176, 1177, 1178, 1179, 1180, 1181, 1016, 1182, 1183, 1184, 1185, 1186, 1187, 1188, 1189,
  1190, 1191, 1192, 2, 2, 1163, 1165, 2, 1165, 2, 948, 948, 1032, 1159, 2, 3, 2, 2, 4, 1195, 1196, 296, 263, 1197,
  1198, 1199, 1200, 1201, 1202, 1203, 1204, 1205, 1206, 1207, 1208, 1209, 1210, 343, 1211, 1212, 1213, 1214, 1215, 1216, 1217, 1218, 1219, 1220,
  1221, 2, 2, 2, 1194, 2, 1194, 2, 275, 275, 359, 1193, 2, 3, 2, 2, 4, 1195, 1196, 296]

/-- Part of _StdTok_indicies, scanner_utf8.c 2074–3137. -/
def indicies14 : List Nat := [263, 1197, 1198, 1199, 1200, 1201, 1202, 1203, 1204, 1205, 1206, 1207, 1208, 1209, 1210, 343, 1211, 1212, 1213, 1214, 1215, 1216, 1217, 1218,
  1219, 1220, 1221, 2, 2, 2, 1194, 1194, 2, 1194, 2, 275, 275, 359, 1193, 1195, 1196, 296, 263, 1197, 1198, 1199, 1200, 1201,
  1202, 1203, 1204, 1205, 1206, 1207, 1208, 1209, 1210, 343, 1211, 1212, 1213, 1214, 1215, 1216, 1217, 1218, 1219, 1220, 1221, 231, 231, 231,
  275, 275, 359, 1193, 2, 3, 2, 2, 4, 1224, 1224, 1225, 1226, 455, 422, 1227, 1228, 1229, 1230, 1231, 1232, 1233, 1234, 1235,
  1236, 1237, 1238, 1239, 1240, 502, 1241, 1242, 1243, 1244, 1245, 1246, 1247, 1248, 1249, 1250, 1251, 2, 2, 2, 1223, 2, 1223, 2,
  434, 434, 518, 1222, 2, 3, 2, 2, 4, 1225, 1226, 455, 422, 1227, 1228, 1229, 1230, 1231, 1232, 1233, 1234, 1235, 1236, 1237,
  1238, 1239, 1240, 502, 1241, 1242, 1243, 1244, 1245, 1246, 1247, 1248, 1249, 1250, 1251, 2, 2, 2, 1223, 2, 1223, 2, 434, 434,
  518, 1, 1225, 1226, 455, 422, 1227, 1228, 1229, 1230, 1231, 1232, 1233, 1234, 1235, 1236, 1237, 1238, 1239, 1240, 502, 1241, 1242, 1243,
  1244, 1245, 1246, 1247, 1248, 1249, 1250, 1251, 390, 390, 434, 434, 518, 1, 2, 16, 1162, 2, 2, 2, 4, 2, 2, 50,
  61, 2, 61, 2, 1252, 2, 16, 1162, 2, 2, 2, 4, 64, 2, 2, 50, 61, 2, 61, 2, 1252, 2, 16, 1162,
  2, 2, 2, 4, 65, 2, 2, 50, 61, 2, 61, 2, 1252, 2, 16, 1162, 2, 2, 2, 4, 66, 2, 2, 50,
  61, 2, 61, 2, 1252, 2, 16, 1162, 2, 2, 2, 4, 67, 2, 2, 50, 61, 2, 61, 2, 1252, 2, 16, 1162,
  2, 2, 2, 4, 68, 2, 2, 50, 61, 2, 61, 2, 1252, 2, 16, 1162, 2, 2, 2, 4, 69, 2, 2, 50,
  61, 2, 61, 2, 1252, 2, 16, 1162, 2, 2, 2, 4, 70, 2, 2, 50, 61, 2, 61, 2, 1252, 2, 16, 1162,
  2, 2, 2, 4, 71, 2, 2, 50, 61, 2, 61, 2, 1252, 1253, 1252, 2, 1160, 1254, 1147, 51, 2, 1149, 2, 2,
  1164, 1151, 1255, 1256, 810, 777, 1257, 1258, 1259, 1260, 1261, 1262, 1263, 1264, 1265, 1266, 1267, 1268, 1269, 1270, 857, 1271, 1272, 1273,
  1274, 1275, 1276, 1277, 1278, 1279, 1280, 1281, 2, 2, 1163, 1163, 2, 1163, 2, 789, 789, 873, 1159, 2, 3, 2, 4, 1282,
  1282, 2, 2, 2, 2, 2, 1222, 5, 5, 5, 5, 6, 1195, 1196, 296, 263, 1197, 1198, 1199, 1200, 1201, 1202, 1203, 1204,
  1205, 1206, 1207, 1208, 1209, 1210, 343, 1211, 1212, 1213, 1214, 1215, 1216, 1217, 1218, 1219, 1220, 1221, 5, 5, 5, 1283, 5, 1283,
  5, 275, 275, 359, 1193, 5, 1140, 5, 5, 1195, 1196, 296, 263, 1197, 1198, 1199, 1200, 1201, 1202, 1203, 1204, 1205, 1206, 1207,
  1208, 1209, 1210, 343, 1211, 1212, 1213, 1214, 1215, 1216, 1217, 1218, 1219, 1220, 1221, 5, 5, 5, 1283, 1283]

/-- Part of _StdTok_indicies, scanner_utf8.c 2074–3137. -/
def indicies15 : List Nat := [5, 1283, 5, 275, 275, 359, 1139, 1284, 1285, 1157, 1284, 1157, 1255, 1256, 810, 777, 1257, 1258, 1259, 1260, 1261, 1262, 1263, 1264,
  1265, 1266, 1267, 1268, 1269, 1270, 857, 1271, 1272, 1273, 1274, 1275, 1276, 1277, 1278, 1279, 1280, 1281, 745, 745, 745, 789, 789, 873,
  1159, 1195, 1196, 296, 263, 1197, 1198, 1199, 1200, 1201, 1202, 1203, 1204, 1205, 1206, 1207, 1208, 1209, 1210, 343, 1211, 1212, 1213, 1214,
  1215, 1216, 1217, 1218, 1219, 1220, 1221, 231, 231, 275, 275, 359, 1193, 1286, 1286, 1222, 2, 1160, 1161, 1147, 51, 2, 1149, 2,
  2, 1164, 1151, 1166, 1167, 969, 936, 1168, 1169, 1170, 1171, 1172, 1173, 1174, 1175, 1176, 1177, 1178, 1179, 1180, 1181, 1016, 1182, 1183,
  1184, 1185, 1186, 1187, 1188, 1189, 1190, 1191, 1192, 2, 2, 1163, 1165, 2, 1165, 2, 948, 948, 1032, 1159, 1284, 1287, 1157, 1284,
  1157, 1166, 1167, 969, 936, 1168, 1169, 1170, 1171, 1172, 1173, 1174, 1175, 1176, 1177, 1178, 1179, 1180, 1181, 1016, 1182, 1183, 1184, 1185,
  1186, 1187, 1188, 1189, 1190, 1191, 1192, 745, 904, 904, 948, 948, 1032, 1159, 1288, 1288, 1225, 1226, 455, 422, 1227, 1228, 1229, 1230,
  1231, 1232, 1233, 1234, 1235, 1236, 1237, 1238, 1239, 1240, 502, 1241, 1242, 1243, 1244, 1245, 1246, 1247, 1248, 1249, 1250, 1251, 390, 390,
  434, 434, 518, 1222, 2, 1160, 1161, 1147, 1162, 2, 1149, 2, 2, 1164, 1151, 1289, 1290, 1166, 1167, 969, 936, 1168, 1169, 1170,
  1171, 1172, 1173, 1174, 1175, 1176, 1177, 1178, 1179, 1180, 1181, 1016, 1182, 1183, 1184, 1185, 1186, 1187, 1188, 1189, 1190, 1191, 1192, 2,
  2, 1163, 1165, 2, 1165, 2, 948, 948, 1032, 1159, 2, 1160, 1161, 1147, 51, 2, 1149, 2, 2, 1164, 1151, 1291, 1166, 1167,
  969, 936, 1168, 1169, 1170, 1171, 1172, 1173, 1174, 1175, 1176, 1177, 1178, 1179, 1180, 1181, 1016, 1182, 1183, 1184, 1185, 1186, 1187, 1188,
  1189, 1190, 1191, 1192, 2, 2, 1163, 1165, 2, 1165, 2, 948, 948, 1032, 1159, 2, 1160, 1161, 1147, 51, 2, 1149, 2, 2,
  1164, 1151, 1292, 1166, 1167, 969, 936, 1168, 1169, 1170, 1171, 1172, 1173, 1174, 1175, 1176, 1177, 1178, 1179, 1180, 1181, 1016, 1182, 1183,
  1184, 1185, 1186, 1187, 1188, 1189, 1190, 1191, 1192, 2, 2, 1163, 1165, 2, 1165, 2, 948, 948, 1032, 1159, 2, 1160, 1161, 1147,
  51, 2, 1293, 2, 2, 1164, 1151, 1166, 1167, 969, 936, 1168, 1169, 1170, 1171, 1172, 1173, 1174, 1175, 1176, 1177, 1178, 1179, 1180,
  1181, 1016, 1182, 1183, 1184, 1185, 1186, 1187, 1188, 1189, 1190, 1191, 1192, 2, 2, 1163, 1165, 2, 1165, 2, 948, 948, 1032, 1159,
  1064, 1294, 230, 230, 1064, 230, 1064, 1064, 1064, 1152, 2, 1160, 1161, 1147, 51, 2, 1149, 2, 2, 1164, 1151, 1292, 1166, 1167,
  969, 936, 1168, 1169, 1170, 1171, 1172, 1173, 1174, 1175, 1176, 1177, 1178, 1179, 1180, 1181, 1016, 1182, 1183, 1184, 1185, 1186, 1187, 1188,
  1189, 1190, 1191, 1192, 2, 2, 1163, 1165, 2, 1165, 2, 948, 948, 1032, 1159, 2, 1160, 1161, 1147, 1162]

/-- Part of _StdTok_indicies, scanner_utf8.c 2074–3137. -/
def indicies16 : List Nat := [2, 1149, 2, 2, 1164, 1151, 1295, 1166, 1167, 969, 936, 1168, 1169, 1170, 1171, 1172, 1173, 1174, 1175, 1176, 1177, 1178, 1179, 1180,
  1181, 1016, 1182, 1183, 1184, 1185, 1186, 1187, 1188, 1189, 1190, 1191, 1192, 2, 2, 1163, 1165, 2, 1165, 2, 948, 948, 1032, 1159,
  2, 1160, 1161, 1147, 51, 2, 1149, 2, 2, 1164, 1151, 1296, 1166, 1167, 969, 936, 1168, 1169, 1170, 1171, 1172, 1173, 1174, 1175,
  1176, 1177, 1178, 1179, 1180, 1181, 1016, 1182, 1183, 1184, 1185, 1186, 1187, 1188, 1189, 1190, 1191, 1192, 2, 2, 1163, 1165, 2, 1165,
  2, 948, 948, 1032, 1159, 2, 1160, 1161, 1147, 51, 2, 1149, 2, 2, 1164, 1151, 1297, 1166, 1167, 969, 936, 1168, 1169, 1170,
  1171, 1172, 1173, 1174, 1175, 1176, 1177, 1178, 1179, 1180, 1181, 1016, 1182, 1183, 1184, 1185, 1186, 1187, 1188, 1189, 1190, 1191, 1192, 2,
  2, 1163, 1165, 2, 1165, 2, 948, 948, 1032, 1159, 2, 1160, 1161, 1147, 51, 2, 1293, 2, 2, 1164, 1151, 1292, 1166, 1167,
  969, 936, 1168, 1169, 1170, 1171, 1172, 1173, 1174, 1175, 1176, 1177, 1178, 1179, 1180, 1181, 1016, 1182, 1183, 1184, 1185, 1186, 1187, 1188,
  1189, 1190, 1191, 1192, 2, 2, 1163, 1165, 2, 1165, 2, 948, 948, 1032, 1159, 1066, 1066, 1066, 1141, 1284, 1287, 1157, 1253, 1284,
  1157, 1166, 1167, 969, 936, 1168, 1169, 1170, 1171, 1172, 1173, 1174, 1175, 1176, 1177, 1178, 1179, 1180, 1181, 1016, 1182, 1183, 1184, 1185,
  1186, 1187, 1188, 1189, 1190, 1191, 1192, 745, 904, 904, 948, 948, 1032, 1159, 1066, 1066, 1066, 1141, 1066, 1141, 1066, 1066, 1141, 1141,
  1141, 1141, 1141, 1141, 1066, 1066, 1066, 1066, 1066, 1141, 1066, 1066, 1066, 1066, 1066, 1141, 1141, 1066, 1141, 1066, 1141, 1066, 1141, 1141,
  1066, 1141, 1141, 1141, 1066, 1066, 1066, 1066, 1066, 1066, 1141, 1066, 1066, 1141, 1066, 1066, 1066, 1141, 1141, 1141, 1141, 1141, 1141, 1141,
  1066, 1066, 1141, 1066, 1141, 1141, 1066, 1066, 1066, 1066, 1141, 1298, 1299, 1300, 1301, 1302, 1303, 1304, 1305, 1306, 1307, 1308, 1309, 1310,
  1311, 1312, 1313, 1314, 1315, 1316, 1317, 1318, 1319, 1320, 1321, 1322, 1323, 1324, 1141, 1325, 1326, 1327, 1328, 1329, 1330, 1331, 1332, 1333,
  1334, 1335, 1336, 1337, 1338, 1339, 1340, 1341, 1342, 1343, 1344, 1345, 1346, 1347, 1348, 1349, 1350, 1351, 1352, 1353, 1354, 1355, 1356, 1357,
  1358, 1359, 1069, 1078, 1360, 1069, 1361, 1362, 1363, 1364, 1069, 1078, 1078, 1141, 1365, 1366, 1367, 1368, 1369, 1370, 1371, 1372, 1373, 1069,
  1374, 1375, 1376, 1377, 1378, 1379, 1141, 1380, 1339, 1381, 1382, 1383, 1078, 1384, 1385, 1069, 1078, 1141, 1386, 1141, 1069, 1078, 1078, 1387,
  1141, 1078, 1069, 1388, 1069, 1389, 1390, 1391, 1392, 1078, 1393, 1394, 1395, 1396, 1069, 1387, 1397, 1398, 1399, 1400, 1069, 1078, 1078, 1078,
  1141, 1401, 1141, 1078, 1069, 1402, 1403, 1404, 1405, 1406, 1407, 1408, 1409, 1410, 1411, 1412, 1413, 1078, 1414, 1415, 1416, 1417, 1418, 1078,
  1141, 1419, 1420, 1421, 1422, 1424, 1425, 1423, 1141, 0]

/-- _StdTok_indicies, scanner_utf8.c 2074–3137. -/
def indicies : List Nat := indicies0 ++ (indicies1 ++ (indicies2 ++ (indicies3 ++ (indicies4 ++ (indicies5 ++ (indicies6 ++ (indicies7 ++ (indicies8 ++ (indicies9 ++ (indicies10 ++ (indicies11 ++ (indicies12 ++ (indicies13 ++ (indicies14 ++ (indicies15 ++ (indicies16))))))))))))))))

/-- Part of _StdTok_trans_targs, scanner_utf8.c 3139–3319. -/
def targs0 : List Nat := [1304, 1305, 2, 3, 4, 1307, 6, 1305, 7, 1305, 1305, 8, 9, 10, 1305, 1311, 13, 1323, 28, 30, 31, 32, 33, 34,
  35, 36, 37, 38, 39, 40, 41, 42, 43, 44, 45, 46, 47, 48, 49, 50, 78, 118, 134, 141, 143, 144, 146, 160,
  162, 179, 14, 15, 16, 18, 19, 20, 21, 22, 24, 25, 26, 1313, 1305, 1314, 1315, 1316, 1317, 1318, 1319, 1320, 1321, 1322,
  1324, 1325, 51, 52, 53, 54, 55, 56, 57, 58, 59, 60, 61, 62, 63, 64, 65, 66, 67, 68, 69, 70, 71, 72,
  73, 74, 75, 76, 77, 79, 80, 81, 82, 83, 84, 85, 86, 87, 88, 89, 90, 91, 92, 93, 94, 95, 96, 97,
  98, 99, 100, 101, 102, 103, 104, 105, 106, 107, 108, 109, 110, 111, 112, 113, 114, 115, 116, 117, 119, 120, 121, 122,
  123, 124, 125, 126, 127, 128, 129, 130, 131, 132, 133, 135, 136, 137, 138, 139, 140, 142, 145, 147, 148, 149, 150, 151,
  152, 153, 154, 155, 156, 157, 158, 159, 161, 163, 164, 165, 166, 167, 168, 169, 170, 171, 172, 173, 174, 175, 176, 177,
  178, 180, 195, 198, 210, 211, 213, 181, 182, 183, 184, 185, 186, 187, 188, 189, 190, 191, 192, 193, 194, 196, 197, 199,
  200, 201, 202, 203, 204, 205, 206, 207, 208, 209, 212, 1305, 1326, 216, 1327, 1332, 239, 240, 241, 242, 243, 244, 245, 246,
  247, 248, 249, 250, 251, 252, 253, 254, 255, 256, 257, 258, 259, 260, 261, 262, 263, 264, 265, 267, 268, 269, 270, 221,
  271, 272, 273, 274, 275, 276, 277, 278, 279, 280, 281, 219, 282, 283, 284, 285, 286, 287, 288, 289, 290, 291, 292, 293,
  294, 295, 296, 297, 298, 299, 300, 301, 220, 302, 303, 304, 305, 307, 308, 309, 310, 311, 312, 313, 314, 315, 316, 317,
  318, 319, 320, 321, 323, 324, 325, 326, 327, 328, 330, 333, 335, 336, 337, 338, 339, 340, 341, 342, 343, 344, 345, 346,
  347, 349, 351, 352, 353, 354, 355, 236, 356, 357, 358, 359, 360, 361, 362, 363, 364, 365, 366, 368, 383, 386, 398, 331,
  399, 401, 369, 370, 371, 372, 373, 374, 375, 376, 377, 378, 379, 380, 381, 382, 384, 385, 387, 388, 389, 390, 391, 392,
  393, 394, 395, 396, 397, 400, 1335, 424, 425, 426, 427, 428, 429, 430, 431, 432, 433, 434, 435, 436, 437, 438, 439, 440,
  441, 442, 443, 444, 445, 446, 447, 448, 449, 450, 452, 453, 454, 455, 406, 456, 457, 458, 459, 460, 461, 462, 463, 464,
  465, 466, 404, 467, 468, 469, 470, 471, 472, 473, 474, 475, 476, 477, 478, 479, 480, 481, 482, 483, 484, 485, 486, 405,
  487, 488, 489, 490, 492, 493, 494, 495, 496, 497, 498, 499, 500, 501, 502, 503, 504, 505, 506, 508, 509, 510, 511, 512,
  513, 515, 518, 520, 521, 522, 523, 524, 525, 526, 527, 528, 529, 530, 531, 532, 534, 536, 537, 538]

/-- Part of _StdTok_trans_targs, scanner_utf8.c 3139–3319. -/
def targs1 : List Nat := [539, 540, 421, 541, 542, 543, 544, 545, 546, 547, 548, 549, 550, 551, 553, 568, 571, 583, 516, 584, 586, 554, 555, 556,
  557, 558, 559, 560, 561, 562, 563, 564, 565, 566, 567, 569, 570, 572, 573, 574, 575, 576, 577, 578, 579, 580, 581, 582,
  585, 1336, 1337, 1338, 1339, 1340, 1341, 1342, 1343, 1344, 588, 590, 591, 592, 593, 594, 595, 596, 597, 598, 599, 600, 601, 602,
  603, 604, 605, 606, 607, 608, 609, 610, 638, 678, 694, 701, 703, 704, 706, 720, 722, 739, 1345, 611, 612, 613, 614, 615,
  616, 617, 618, 619, 620, 621, 622, 623, 624, 625, 626, 627, 628, 629, 630, 631, 632, 633, 634, 635, 636, 637, 639, 640,
  641, 642, 643, 644, 645, 646, 647, 648, 649, 650, 651, 652, 653, 654, 655, 656, 657, 658, 659, 660, 661, 662, 663, 664,
  665, 666, 667, 668, 669, 670, 671, 672, 673, 674, 675, 676, 677, 679, 680, 681, 682, 683, 684, 685, 686, 687, 688, 689,
  690, 691, 692, 693, 695, 696, 697, 698, 699, 700, 702, 705, 707, 708, 709, 710, 711, 712, 713, 714, 715, 716, 717, 718,
  719, 721, 723, 724, 725, 726, 727, 728, 729, 730, 731, 732, 733, 734, 735, 736, 737, 738, 740, 755, 758, 770, 771, 773,
  741, 742, 743, 744, 745, 746, 747, 748, 749, 750, 751, 752, 753, 754, 756, 757, 759, 760, 761, 762, 763, 764, 765, 766,
  767, 768, 769, 772, 1305, 1350, 796, 797, 798, 799, 800, 801, 802, 803, 804, 805, 806, 807, 808, 809, 810, 811, 812, 813,
  814, 815, 816, 817, 818, 819, 820, 821, 822, 824, 825, 826, 827, 778, 828, 829, 830, 831, 832, 833, 834, 835, 836, 837,
  838, 776, 839, 840, 841, 842, 843, 844, 845, 846, 847, 848, 849, 850, 851, 852, 853, 854, 855, 856, 857, 858, 777, 859,
  860, 861, 862, 864, 865, 866, 867, 868, 869, 870, 871, 872, 873, 874, 875, 876, 877, 878, 880, 881, 882, 883, 884, 885,
  887, 890, 892, 893, 894, 895, 896, 897, 898, 899, 900, 901, 902, 903, 904, 906, 908, 909, 910, 911, 912, 793, 913, 914,
  915, 916, 917, 918, 919, 920, 921, 922, 923, 925, 940, 943, 955, 888, 956, 958, 926, 927, 928, 929, 930, 931, 932, 933,
  934, 935, 936, 937, 938, 939, 941, 942, 944, 945, 946, 947, 948, 949, 950, 951, 952, 953, 954, 957, 1354, 981, 982, 983,
  984, 985, 986, 987, 988, 989, 990, 991, 992, 993, 994, 995, 996, 997, 998, 999, 1000, 1001, 1002, 1003, 1004, 1005, 1006, 1007,
  1009, 1010, 1011, 1012, 963, 1013, 1014, 1015, 1016, 1017, 1018, 1019, 1020, 1021, 1022, 1023, 961, 1024, 1025, 1026, 1027, 1028, 1029, 1030,
  1031, 1032, 1033, 1034, 1035, 1036, 1037, 1038, 1039, 1040, 1041, 1042, 1043, 962, 1044, 1045, 1046, 1047, 1049, 1050, 1051, 1052, 1053, 1054,
  1055, 1056, 1057, 1058, 1059, 1060, 1061, 1062, 1063, 1065, 1066, 1067, 1068, 1069, 1070, 1072, 1075, 1077, 1078, 1079]

/-- Part of _StdTok_trans_targs, scanner_utf8.c 3139–3319. -/
def targs2 : List Nat := [1080, 1081, 1082, 1083, 1084, 1085, 1086, 1087, 1088, 1089, 1091, 1093, 1094, 1095, 1096, 1097, 978, 1098, 1099, 1100, 1101, 1102, 1103, 1104,
  1105, 1106, 1107, 1108, 1110, 1125, 1128, 1140, 1073, 1141, 1143, 1111, 1112, 1113, 1114, 1115, 1116, 1117, 1118, 1119, 1120, 1121, 1122, 1123,
  1124, 1126, 1127, 1129, 1130, 1131, 1132, 1133, 1134, 1135, 1136, 1137, 1138, 1139, 1142, 1145, 1327, 1360, 1367, 1270, 1271, 1177, 1272, 1273,
  1274, 1275, 1276, 1277, 1278, 1279, 1189, 1280, 1281, 1282, 1283, 1285, 1286, 1288, 1289, 1290, 1291, 1292, 1293, 1294, 1295, 1296, 1297, 1298,
  1302, 0, 1305, 1305, 1306, 1308, 1309, 1312, 1329, 1356, 1362, 1366, 1368, 1369, 1370, 1371, 1372, 1373, 1374, 1375, 1376, 1377, 1378, 1379,
  1380, 1381, 1382, 1383, 1384, 1385, 1386, 1387, 1388, 1389, 1390, 1391, 1392, 1393, 1394, 1395, 1396, 1397, 1398, 1305, 5, 1305, 1310, 1305,
  11, 1305, 1305, 12, 214, 215, 1328, 27, 1305, 1306, 17, 1305, 23, 29, 1327, 1305, 1330, 1333, 587, 1346, 1348, 1353, 959, 960,
  964, 965, 966, 967, 968, 969, 970, 971, 972, 973, 974, 975, 976, 977, 979, 980, 1008, 1048, 1064, 1071, 1074, 1076, 1090, 1092,
  1109, 1305, 1331, 217, 218, 222, 223, 224, 225, 226, 227, 228, 229, 230, 231, 232, 233, 234, 235, 237, 238, 266, 306, 322,
  329, 332, 334, 348, 350, 367, 1305, 1334, 1334, 402, 403, 407, 408, 409, 410, 411, 412, 413, 414, 415, 416, 417, 418, 419,
  420, 422, 423, 451, 491, 507, 514, 517, 519, 533, 535, 552, 1305, 589, 1347, 774, 775, 779, 780, 781, 782, 783, 784, 785,
  786, 787, 788, 789, 790, 791, 792, 794, 795, 823, 863, 879, 886, 889, 891, 905, 907, 924, 1306, 1349, 1351, 1352, 1305, 1355,
  1335, 1357, 1361, 1358, 1359, 1144, 1360, 1363, 1364, 1365, 1146, 1147, 1148, 1149, 1150, 1151, 1152, 1153, 1154, 1155, 1156, 1157, 1158, 1159,
  1160, 1161, 1162, 1163, 1164, 1165, 1166, 1167, 1168, 1169, 1170, 1171, 1172, 1173, 1174, 1175, 1176, 1178, 1179, 1180, 1181, 1182, 1183, 1184,
  1185, 1186, 1187, 1188, 1190, 1191, 1192, 1193, 1194, 1195, 1196, 1197, 1198, 1199, 1200, 1201, 1202, 1203, 1204, 1205, 1206, 1207, 1208, 1209,
  1210, 1211, 1212, 1213, 1214, 1215, 1216, 1217, 1218, 1219, 1220, 1221, 1222, 1223, 1224, 1225, 1226, 1227, 1228, 1229, 1230, 1231, 1232, 1233,
  1234, 1235, 1236, 1237, 1238, 1239, 1240, 1241, 1242, 1243, 1244, 1245, 1246, 1247, 1248, 1249, 1250, 1251, 1252, 1253, 1254, 1255, 1256, 1257,
  1258, 1259, 1260, 1261, 1262, 1263, 1264, 1265, 1266, 1267, 1268, 1269, 1284, 1287, 1299, 1300, 1301, 1303]

/-- _StdTok_trans_targs, scanner_utf8.c 3139–3319. -/
def targs : List Nat := targs0 ++ (targs1 ++ (targs2))

/-- Part of _StdTok_trans_actions, scanner_utf8.c 3321–3501. -/
def tacts0 : List Nat := [5, 53, 0, 0, 0, 11, 0, 41, 0, 13, 51, 0, 0, 0, 49, 88, 0, 73, 0, 0, 0, 0, 0, 0,
  0, 0, 0, 0, 0, 0, 0, 0, 0, 0, 0, 0, 0, 0, 0, 0, 0, 0, 0, 0, 0, 0, 0, 0,
  0, 0, 0, 0, 0, 0, 0, 0, 0, 0, 0, 0, 0, 79, 47, 0, 79, 79, 79, 79, 79, 79, 79, 79,
  73, 73, 0, 0, 0, 0, 0, 0, 0, 0, 0, 0, 0, 0, 0, 0, 0, 0, 0, 0, 0, 0, 0, 0,
  0, 0, 0, 0, 0, 0, 0, 0, 0, 0, 0, 0, 0, 0, 0, 0, 0, 0, 0, 0, 0, 0, 0, 0,
  0, 0, 0, 0, 0, 0, 0, 0, 0, 0, 0, 0, 0, 0, 0, 0, 0, 0, 0, 0, 0, 0, 0, 0,
  0, 0, 0, 0, 0, 0, 0, 0, 0, 0, 0, 0, 0, 0, 0, 0, 0, 0, 0, 0, 0, 0, 0, 0,
  0, 0, 0, 0, 0, 0, 0, 0, 0, 0, 0, 0, 0, 0, 0, 0, 0, 0, 0, 0, 0, 0, 0, 0,
  0, 0, 0, 0, 0, 0, 0, 0, 0, 0, 0, 0, 0, 0, 0, 0, 0, 0, 0, 0, 0, 0, 0, 0,
  0, 0, 0, 0, 0, 0, 0, 0, 0, 0, 0, 45, 88, 0, 0, 76, 0, 0, 0, 0, 0, 0, 0, 0,
  0, 0, 0, 0, 0, 0, 0, 0, 0, 0, 0, 0, 0, 0, 0, 0, 0, 0, 0, 0, 0, 0, 0, 0,
  0, 0, 0, 0, 0, 0, 0, 0, 0, 0, 0, 0, 0, 0, 0, 0, 0, 0, 0, 0, 0, 0, 0, 0,
  0, 0, 0, 0, 0, 0, 0, 0, 0, 0, 0, 0, 0, 0, 0, 0, 0, 0, 0, 0, 0, 0, 0, 0,
  0, 0, 0, 0, 0, 0, 0, 0, 0, 0, 0, 0, 0, 0, 0, 0, 0, 0, 0, 0, 0, 0, 0, 0,
  0, 0, 0, 0, 0, 0, 0, 0, 0, 0, 0, 0, 0, 0, 0, 0, 0, 0, 0, 0, 0, 0, 0, 0,
  0, 0, 0, 0, 0, 0, 0, 0, 0, 0, 0, 0, 0, 0, 0, 0, 0, 0, 0, 0, 0, 0, 0, 0,
  0, 0, 0, 0, 0, 0, 70, 0, 0, 0, 0, 0, 0, 0, 0, 0, 0, 0, 0, 0, 0, 0, 0, 0,
  0, 0, 0, 0, 0, 0, 0, 0, 0, 0, 0, 0, 0, 0, 0, 0, 0, 0, 0, 0, 0, 0, 0, 0,
  0, 0, 0, 0, 0, 0, 0, 0, 0, 0, 0, 0, 0, 0, 0, 0, 0, 0, 0, 0, 0, 0, 0, 0,
  0, 0, 0, 0, 0, 0, 0, 0, 0, 0, 0, 0, 0, 0, 0, 0, 0, 0, 0, 0, 0, 0, 0, 0,
  0, 0, 0, 0, 0, 0, 0, 0, 0, 0, 0, 0, 0, 0, 0, 0, 0, 0, 0, 0]

/-- Part of _StdTok_trans_actions, scanner_utf8.c 3321–3501. -/
def tacts1 : List Nat := [0, 0, 0, 0, 0, 0, 0, 0, 0, 0, 0, 0, 0, 0, 0, 0, 0, 0, 0, 0, 0, 0, 0, 0,
  0, 0, 0, 0, 0, 0, 0, 0, 0, 0, 0, 0, 0, 0, 0, 0, 0, 0, 0, 0, 0, 0, 0, 0,
  0, 82, 82, 82, 82, 82, 82, 82, 82, 82, 0, 0, 0, 0, 0, 0, 0, 0, 0, 0, 0, 0, 0, 0,
  0, 0, 0, 0, 0, 0, 0, 0, 0, 0, 0, 0, 0, 0, 0, 0, 0, 0, 82, 0, 0, 0, 0, 0,
  0, 0, 0, 0, 0, 0, 0, 0, 0, 0, 0, 0, 0, 0, 0, 0, 0, 0, 0, 0, 0, 0, 0, 0,
  0, 0, 0, 0, 0, 0, 0, 0, 0, 0, 0, 0, 0, 0, 0, 0, 0, 0, 0, 0, 0, 0, 0, 0,
  0, 0, 0, 0, 0, 0, 0, 0, 0, 0, 0, 0, 0, 0, 0, 0, 0, 0, 0, 0, 0, 0, 0, 0,
  0, 0, 0, 0, 0, 0, 0, 0, 0, 0, 0, 0, 0, 0, 0, 0, 0, 0, 0, 0, 0, 0, 0, 0,
  0, 0, 0, 0, 0, 0, 0, 0, 0, 0, 0, 0, 0, 0, 0, 0, 0, 0, 0, 0, 0, 0, 0, 0,
  0, 0, 0, 0, 0, 0, 0, 0, 0, 0, 0, 0, 0, 0, 0, 0, 0, 0, 0, 0, 0, 0, 0, 0,
  0, 0, 0, 0, 43, 61, 0, 0, 0, 0, 0, 0, 0, 0, 0, 0, 0, 0, 0, 0, 0, 0, 0, 0,
  0, 0, 0, 0, 0, 0, 0, 0, 0, 0, 0, 0, 0, 0, 0, 0, 0, 0, 0, 0, 0, 0, 0, 0,
  0, 0, 0, 0, 0, 0, 0, 0, 0, 0, 0, 0, 0, 0, 0, 0, 0, 0, 0, 0, 0, 0, 0, 0,
  0, 0, 0, 0, 0, 0, 0, 0, 0, 0, 0, 0, 0, 0, 0, 0, 0, 0, 0, 0, 0, 0, 0, 0,
  0, 0, 0, 0, 0, 0, 0, 0, 0, 0, 0, 0, 0, 0, 0, 0, 0, 0, 0, 0, 0, 0, 0, 0,
  0, 0, 0, 0, 0, 0, 0, 0, 0, 0, 0, 0, 0, 0, 0, 0, 0, 0, 0, 0, 0, 0, 0, 0,
  0, 0, 0, 0, 0, 0, 0, 0, 0, 0, 0, 0, 0, 0, 0, 0, 0, 0, 0, 0, 61, 0, 0, 0,
  0, 0, 0, 0, 0, 0, 0, 0, 0, 0, 0, 0, 0, 0, 0, 0, 0, 0, 0, 0, 0, 0, 0, 0,
  0, 0, 0, 0, 0, 0, 0, 0, 0, 0, 0, 0, 0, 0, 0, 0, 0, 0, 0, 0, 0, 0, 0, 0,
  0, 0, 0, 0, 0, 0, 0, 0, 0, 0, 0, 0, 0, 0, 0, 0, 0, 0, 0, 0, 0, 0, 0, 0,
  0, 0, 0, 0, 0, 0, 0, 0, 0, 0, 0, 0, 0, 0, 0, 0, 0, 0, 0, 0]

/-- Part of _StdTok_trans_actions, scanner_utf8.c 3321–3501. -/
def tacts2 : List Nat := [0, 0, 0, 0, 0, 0, 0, 0, 0, 0, 0, 0, 0, 0, 0, 0, 0, 0, 0, 0, 0, 0, 0, 0,
  0, 0, 0, 0, 0, 0, 0, 0, 0, 0, 0, 0, 0, 0, 0, 0, 0, 0, 0, 0, 0, 0, 0, 0,
  0, 0, 0, 0, 0, 0, 0, 0, 0, 0, 0, 0, 0, 0, 0, 0, 1, 0, 61, 0, 0, 0, 0, 0,
  0, 0, 0, 0, 0, 0, 0, 0, 0, 0, 0, 0, 0, 0, 0, 0, 0, 0, 0, 0, 0, 0, 0, 0,
  0, 0, 17, 19, 91, 91, 91, 73, 61, 61, 61, 0, 0, 0, 0, 0, 0, 0, 0, 0, 0, 0, 0, 0,
  0, 0, 0, 0, 0, 0, 0, 0, 11, 11, 11, 11, 11, 11, 11, 11, 11, 11, 11, 21, 0, 39, 85, 35,
  0, 37, 27, 0, 0, 0, 73, 0, 31, 94, 0, 55, 0, 0, 3, 23, 76, 64, 0, 61, 76, 61, 0, 0,
  0, 0, 0, 0, 0, 0, 0, 0, 0, 0, 0, 0, 0, 0, 0, 0, 0, 0, 0, 0, 0, 0, 0, 0,
  0, 29, 76, 0, 0, 0, 0, 0, 0, 0, 0, 0, 0, 0, 0, 0, 0, 0, 0, 0, 0, 0, 0, 0,
  0, 0, 0, 0, 0, 0, 25, 70, 67, 0, 0, 0, 0, 0, 0, 0, 0, 0, 0, 0, 0, 0, 0, 0,
  0, 0, 0, 0, 0, 0, 0, 0, 0, 0, 0, 0, 33, 0, 64, 0, 0, 0, 0, 0, 0, 0, 0, 0,
  0, 0, 0, 0, 0, 0, 0, 0, 0, 0, 0, 0, 0, 0, 0, 0, 0, 0, 67, 58, 76, 0, 15, 64,
  67, 61, 61, 61, 61, 0, 3, 61, 61, 61, 0, 0, 0, 0, 0, 0, 0, 0, 0, 0, 0, 0, 0, 0,
  0, 0, 0, 0, 0, 0, 0, 0, 0, 0, 0, 0, 0, 0, 0, 0, 0, 0, 0, 0, 0, 0, 0, 0,
  0, 0, 0, 0, 0, 0, 0, 0, 0, 0, 0, 0, 0, 0, 0, 0, 0, 0, 0, 0, 0, 0, 0, 0,
  0, 0, 0, 0, 0, 0, 0, 0, 0, 0, 0, 0, 0, 0, 0, 0, 0, 0, 0, 0, 0, 0, 0, 0,
  0, 0, 0, 0, 0, 0, 0, 0, 0, 0, 0, 0, 0, 0, 0, 0, 0, 0, 0, 0, 0, 0, 0, 0,
  0, 0, 0, 0, 0, 0, 0, 0, 0, 0, 0, 0, 0, 0, 0, 0, 0, 0]

/-- _StdTok_trans_actions, scanner_utf8.c 3321–3501. -/
def tacts : List Nat := tacts0 ++ (tacts1 ++ (tacts2))

/-- Part of _StdTok_to_state_actions, scanner_utf8.c 3503–3679. -/
def toState0 : List Nat := [0, 7, 0, 0, 0, 0, 0, 0, 0, 0, 0, 0, 0, 0, 0, 0, 0, 0, 0, 0, 0, 0, 0, 0,
  0, 0, 0, 0, 0, 0, 0, 0, 0, 0, 0, 0, 0, 0, 0, 0, 0, 0, 0, 0, 0, 0, 0, 0,
  0, 0, 0, 0, 0, 0, 0, 0, 0, 0, 0, 0, 0, 0, 0, 0, 0, 0, 0, 0, 0, 0, 0, 0,
  0, 0, 0, 0, 0, 0, 0, 0, 0, 0, 0, 0, 0, 0, 0, 0, 0, 0, 0, 0, 0, 0, 0, 0,
  0, 0, 0, 0, 0, 0, 0, 0, 0, 0, 0, 0, 0, 0, 0, 0, 0, 0, 0, 0, 0, 0, 0, 0,
  0, 0, 0, 0, 0, 0, 0, 0, 0, 0, 0, 0, 0, 0, 0, 0, 0, 0, 0, 0, 0, 0, 0, 0,
  0, 0, 0, 0, 0, 0, 0, 0, 0, 0, 0, 0, 0, 0, 0, 0, 0, 0, 0, 0, 0, 0, 0, 0,
  0, 0, 0, 0, 0, 0, 0, 0, 0, 0, 0, 0, 0, 0, 0, 0, 0, 0, 0, 0, 0, 0, 0, 0,
  0, 0, 0, 0, 0, 0, 0, 0, 0, 0, 0, 0, 0, 0, 0, 0, 0, 0, 0, 0, 0, 0, 0, 0,
  0, 0, 0, 0, 0, 0, 0, 0, 0, 0, 0, 0, 0, 0, 0, 0, 0, 0, 0, 0, 0, 0, 0, 0,
  0, 0, 0, 0, 0, 0, 0, 0, 0, 0, 0, 0, 0, 0, 0, 0, 0, 0, 0, 0, 0, 0, 0, 0,
  0, 0, 0, 0, 0, 0, 0, 0, 0, 0, 0, 0, 0, 0, 0, 0, 0, 0, 0, 0, 0, 0, 0, 0,
  0, 0, 0, 0, 0, 0, 0, 0, 0, 0, 0, 0, 0, 0, 0, 0, 0, 0, 0, 0, 0, 0, 0, 0,
  0, 0, 0, 0, 0, 0, 0, 0, 0, 0, 0, 0, 0, 0, 0, 0, 0, 0, 0, 0, 0, 0, 0, 0,
  0, 0, 0, 0, 0, 0, 0, 0, 0, 0, 0, 0, 0, 0, 0, 0, 0, 0, 0, 0, 0, 0, 0, 0,
  0, 0, 0, 0, 0, 0, 0, 0, 0, 0, 0, 0, 0, 0, 0, 0, 0, 0, 0, 0, 0, 0, 0, 0,
  0, 0, 0, 0, 0, 0, 0, 0, 0, 0, 0, 0, 0, 0, 0, 0, 0, 0, 0, 0, 0, 0, 0, 0,
  0, 0, 0, 0, 0, 0, 0, 0, 0, 0, 0, 0, 0, 0, 0, 0, 0, 0, 0, 0, 0, 0, 0, 0,
  0, 0, 0, 0, 0, 0, 0, 0, 0, 0, 0, 0, 0, 0, 0, 0, 0, 0, 0, 0, 0, 0, 0, 0,
  0, 0, 0, 0, 0, 0, 0, 0, 0, 0, 0, 0, 0, 0, 0, 0, 0, 0, 0, 0, 0, 0, 0, 0,
  0, 0, 0, 0, 0, 0, 0, 0, 0, 0, 0, 0, 0, 0, 0, 0, 0, 0, 0, 0]

/-- Part of _StdTok_to_state_actions, scanner_utf8.c 3503–3679. -/
def toState1 : List Nat := [0, 0, 0, 0, 0, 0, 0, 0, 0, 0, 0, 0, 0, 0, 0, 0, 0, 0, 0, 0, 0, 0, 0, 0,
  0, 0, 0, 0, 0, 0, 0, 0, 0, 0, 0, 0, 0, 0, 0, 0, 0, 0, 0, 0, 0, 0, 0, 0,
  0, 0, 0, 0, 0, 0, 0, 0, 0, 0, 0, 0, 0, 0, 0, 0, 0, 0, 0, 0, 0, 0, 0, 0,
  0, 0, 0, 0, 0, 0, 0, 0, 0, 0, 0, 0, 0, 0, 0, 0, 0, 0, 0, 0, 0, 0, 0, 0,
  0, 0, 0, 0, 0, 0, 0, 0, 0, 0, 0, 0, 0, 0, 0, 0, 0, 0, 0, 0, 0, 0, 0, 0,
  0, 0, 0, 0, 0, 0, 0, 0, 0, 0, 0, 0, 0, 0, 0, 0, 0, 0, 0, 0, 0, 0, 0, 0,
  0, 0, 0, 0, 0, 0, 0, 0, 0, 0, 0, 0, 0, 0, 0, 0, 0, 0, 0, 0, 0, 0, 0, 0,
  0, 0, 0, 0, 0, 0, 0, 0, 0, 0, 0, 0, 0, 0, 0, 0, 0, 0, 0, 0, 0, 0, 0, 0,
  0, 0, 0, 0, 0, 0, 0, 0, 0, 0, 0, 0, 0, 0, 0, 0, 0, 0, 0, 0, 0, 0, 0, 0,
  0, 0, 0, 0, 0, 0, 0, 0, 0, 0, 0, 0, 0, 0, 0, 0, 0, 0, 0, 0, 0, 0, 0, 0,
  0, 0, 0, 0, 0, 0, 0, 0, 0, 0, 0, 0, 0, 0, 0, 0, 0, 0, 0, 0, 0, 0, 0, 0,
  0, 0, 0, 0, 0, 0, 0, 0, 0, 0, 0, 0, 0, 0, 0, 0, 0, 0, 0, 0, 0, 0, 0, 0,
  0, 0, 0, 0, 0, 0, 0, 0, 0, 0, 0, 0, 0, 0, 0, 0, 0, 0, 0, 0, 0, 0, 0, 0,
  0, 0, 0, 0, 0, 0, 0, 0, 0, 0, 0, 0, 0, 0, 0, 0, 0, 0, 0, 0, 0, 0, 0, 0,
  0, 0, 0, 0, 0, 0, 0, 0, 0, 0, 0, 0, 0, 0, 0, 0, 0, 0, 0, 0, 0, 0, 0, 0,
  0, 0, 0, 0, 0, 0, 0, 0, 0, 0, 0, 0, 0, 0, 0, 0, 0, 0, 0, 0, 0, 0, 0, 0,
  0, 0, 0, 0, 0, 0, 0, 0, 0, 0, 0, 0, 0, 0, 0, 0, 0, 0, 0, 0, 0, 0, 0, 0,
  0, 0, 0, 0, 0, 0, 0, 0, 0, 0, 0, 0, 0, 0, 0, 0, 0, 0, 0, 0, 0, 0, 0, 0,
  0, 0, 0, 0, 0, 0, 0, 0, 0, 0, 0, 0, 0, 0, 0, 0, 0, 0, 0, 0, 0, 0, 0, 0,
  0, 0, 0, 0, 0, 0, 0, 0, 0, 0, 0, 0, 0, 0, 0, 0, 0, 0, 0, 0, 0, 0, 0, 0,
  0, 0, 0, 0, 0, 0, 0, 0, 0, 0, 0, 0, 0, 0, 0, 0, 0, 0, 0, 0]

/-- Part of _StdTok_to_state_actions, scanner_utf8.c 3503–3679. -/
def toState2 : List Nat := [0, 0, 0, 0, 0, 0, 0, 0, 0, 0, 0, 0, 0, 0, 0, 0, 0, 0, 0, 0, 0, 0, 0, 0,
  0, 0, 0, 0, 0, 0, 0, 0, 0, 0, 0, 0, 0, 0, 0, 0, 0, 0, 0, 0, 0, 0, 0, 0,
  0, 0, 0, 0, 0, 0, 0, 0, 0, 0, 0, 0, 0, 0, 0, 0, 0, 0, 0, 0, 0, 0, 0, 0,
  0, 0, 0, 0, 0, 0, 0, 0, 0, 0, 0, 0, 0, 0, 0, 0, 0, 0, 0, 0, 0, 0, 0, 0,
  0, 0, 0, 0, 0, 0, 0, 0, 0, 0, 0, 0, 0, 0, 0, 0, 0, 0, 0, 0, 0, 0, 0, 0,
  0, 0, 0, 0, 0, 0, 0, 0, 0, 0, 0, 0, 0, 0, 0, 0, 0, 0, 0, 0, 0, 0, 0, 0,
  0, 0, 0, 0, 0, 0, 0, 0, 0, 0, 0, 0, 0, 0, 0, 0, 0, 0, 0, 0, 0, 0, 0, 0,
  0, 0, 0, 0, 0, 0, 0, 0, 0, 0, 0, 0, 0, 0, 0, 0, 0, 0, 0, 0, 0, 0, 0, 0,
  0, 0, 0, 0, 0, 0, 0, 0, 0, 0, 0, 0, 0, 0, 0, 0, 0, 0, 0, 0, 0, 0, 0, 0,
  0, 0, 0, 0, 0, 0, 0, 0, 0, 0, 0, 0, 0, 0, 0, 0, 0, 0, 0, 0, 0, 0, 0, 0,
  0, 0, 0, 0, 0, 0, 0, 0, 0, 0, 0, 0, 0, 0, 0, 0, 0, 0, 0, 0, 0, 0, 0, 0,
  0, 0, 0, 0, 0, 0, 0, 0, 0, 0, 0, 0, 0, 0, 0, 0, 0, 0, 0, 0, 0, 0, 0, 0,
  0, 0, 0, 0, 0, 0, 0, 0, 0, 0, 0, 0, 0, 0, 0, 0, 7, 7, 0, 0, 0, 0, 0, 0,
  0, 0, 0, 0, 0, 0, 0, 0, 0, 0, 0, 0, 0, 0, 0, 0, 0, 0, 0, 0, 0, 0, 0, 0,
  0, 0, 0, 0, 0, 0, 0, 0, 0, 0, 0, 0, 0, 0, 0, 0, 0, 0, 0, 0, 0, 0, 0, 0,
  0, 0, 0, 0, 0, 0, 0, 0, 0, 0, 0, 0, 0, 0, 0, 0, 0, 0, 0, 0, 0, 0, 0, 0,
  0, 0, 0, 0, 0, 0, 0, 0, 0, 0, 0, 0, 0, 0, 0]

/-- _StdTok_to_state_actions, scanner_utf8.c 3503–3679. -/
def toState : List Nat := toState0 ++ (toState1 ++ (toState2))

/-- Part of _StdTok_from_state_actions, scanner_utf8.c 3681–3857. -/
def fromState0 : List Nat := [0, 0, 0, 0, 0, 0, 0, 0, 0, 0, 0, 0, 0, 0, 0, 0, 0, 0, 0, 0, 0, 0, 0, 0,
  0, 0, 0, 0, 0, 0, 0, 0, 0, 0, 0, 0, 0, 0, 0, 0, 0, 0, 0, 0, 0, 0, 0, 0,
  0, 0, 0, 0, 0, 0, 0, 0, 0, 0, 0, 0, 0, 0, 0, 0, 0, 0, 0, 0, 0, 0, 0, 0,
  0, 0, 0, 0, 0, 0, 0, 0, 0, 0, 0, 0, 0, 0, 0, 0, 0, 0, 0, 0, 0, 0, 0, 0,
  0, 0, 0, 0, 0, 0, 0, 0, 0, 0, 0, 0, 0, 0, 0, 0, 0, 0, 0, 0, 0, 0, 0, 0,
  0, 0, 0, 0, 0, 0, 0, 0, 0, 0, 0, 0, 0, 0, 0, 0, 0, 0, 0, 0, 0, 0, 0, 0,
  0, 0, 0, 0, 0, 0, 0, 0, 0, 0, 0, 0, 0, 0, 0, 0, 0, 0, 0, 0, 0, 0, 0, 0,
  0, 0, 0, 0, 0, 0, 0, 0, 0, 0, 0, 0, 0, 0, 0, 0, 0, 0, 0, 0, 0, 0, 0, 0,
  0, 0, 0, 0, 0, 0, 0, 0, 0, 0, 0, 0, 0, 0, 0, 0, 0, 0, 0, 0, 0, 0, 0, 0,
  0, 0, 0, 0, 0, 0, 0, 0, 0, 0, 0, 0, 0, 0, 0, 0, 0, 0, 0, 0, 0, 0, 0, 0,
  0, 0, 0, 0, 0, 0, 0, 0, 0, 0, 0, 0, 0, 0, 0, 0, 0, 0, 0, 0, 0, 0, 0, 0,
  0, 0, 0, 0, 0, 0, 0, 0, 0, 0, 0, 0, 0, 0, 0, 0, 0, 0, 0, 0, 0, 0, 0, 0,
  0, 0, 0, 0, 0, 0, 0, 0, 0, 0, 0, 0, 0, 0, 0, 0, 0, 0, 0, 0, 0, 0, 0, 0,
  0, 0, 0, 0, 0, 0, 0, 0, 0, 0, 0, 0, 0, 0, 0, 0, 0, 0, 0, 0, 0, 0, 0, 0,
  0, 0, 0, 0, 0, 0, 0, 0, 0, 0, 0, 0, 0, 0, 0, 0, 0, 0, 0, 0, 0, 0, 0, 0,
  0, 0, 0, 0, 0, 0, 0, 0, 0, 0, 0, 0, 0, 0, 0, 0, 0, 0, 0, 0, 0, 0, 0, 0,
  0, 0, 0, 0, 0, 0, 0, 0, 0, 0, 0, 0, 0, 0, 0, 0, 0, 0, 0, 0, 0, 0, 0, 0,
  0, 0, 0, 0, 0, 0, 0, 0, 0, 0, 0, 0, 0, 0, 0, 0, 0, 0, 0, 0, 0, 0, 0, 0,
  0, 0, 0, 0, 0, 0, 0, 0, 0, 0, 0, 0, 0, 0, 0, 0, 0, 0, 0, 0, 0, 0, 0, 0,
  0, 0, 0, 0, 0, 0, 0, 0, 0, 0, 0, 0, 0, 0, 0, 0, 0, 0, 0, 0, 0, 0, 0, 0,
  0, 0, 0, 0, 0, 0, 0, 0, 0, 0, 0, 0, 0, 0, 0, 0, 0, 0, 0, 0]

/-- Part of _StdTok_from_state_actions, scanner_utf8.c 3681–3857. -/
def fromState1 : List Nat := [0, 0, 0, 0, 0, 0, 0, 0, 0, 0, 0, 0, 0, 0, 0, 0, 0, 0, 0, 0, 0, 0, 0, 0,
  0, 0, 0, 0, 0, 0, 0, 0, 0, 0, 0, 0, 0, 0, 0, 0, 0, 0, 0, 0, 0, 0, 0, 0,
  0, 0, 0, 0, 0, 0, 0, 0, 0, 0, 0, 0, 0, 0, 0, 0, 0, 0, 0, 0, 0, 0, 0, 0,
  0, 0, 0, 0, 0, 0, 0, 0, 0, 0, 0, 0, 0, 0, 0, 0, 0, 0, 0, 0, 0, 0, 0, 0,
  0, 0, 0, 0, 0, 0, 0, 0, 0, 0, 0, 0, 0, 0, 0, 0, 0, 0, 0, 0, 0, 0, 0, 0,
  0, 0, 0, 0, 0, 0, 0, 0, 0, 0, 0, 0, 0, 0, 0, 0, 0, 0, 0, 0, 0, 0, 0, 0,
  0, 0, 0, 0, 0, 0, 0, 0, 0, 0, 0, 0, 0, 0, 0, 0, 0, 0, 0, 0, 0, 0, 0, 0,
  0, 0, 0, 0, 0, 0, 0, 0, 0, 0, 0, 0, 0, 0, 0, 0, 0, 0, 0, 0, 0, 0, 0, 0,
  0, 0, 0, 0, 0, 0, 0, 0, 0, 0, 0, 0, 0, 0, 0, 0, 0, 0, 0, 0, 0, 0, 0, 0,
  0, 0, 0, 0, 0, 0, 0, 0, 0, 0, 0, 0, 0, 0, 0, 0, 0, 0, 0, 0, 0, 0, 0, 0,
  0, 0, 0, 0, 0, 0, 0, 0, 0, 0, 0, 0, 0, 0, 0, 0, 0, 0, 0, 0, 0, 0, 0, 0,
  0, 0, 0, 0, 0, 0, 0, 0, 0, 0, 0, 0, 0, 0, 0, 0, 0, 0, 0, 0, 0, 0, 0, 0,
  0, 0, 0, 0, 0, 0, 0, 0, 0, 0, 0, 0, 0, 0, 0, 0, 0, 0, 0, 0, 0, 0, 0, 0,
  0, 0, 0, 0, 0, 0, 0, 0, 0, 0, 0, 0, 0, 0, 0, 0, 0, 0, 0, 0, 0, 0, 0, 0,
  0, 0, 0, 0, 0, 0, 0, 0, 0, 0, 0, 0, 0, 0, 0, 0, 0, 0, 0, 0, 0, 0, 0, 0,
  0, 0, 0, 0, 0, 0, 0, 0, 0, 0, 0, 0, 0, 0, 0, 0, 0, 0, 0, 0, 0, 0, 0, 0,
  0, 0, 0, 0, 0, 0, 0, 0, 0, 0, 0, 0, 0, 0, 0, 0, 0, 0, 0, 0, 0, 0, 0, 0,
  0, 0, 0, 0, 0, 0, 0, 0, 0, 0, 0, 0, 0, 0, 0, 0, 0, 0, 0, 0, 0, 0, 0, 0,
  0, 0, 0, 0, 0, 0, 0, 0, 0, 0, 0, 0, 0, 0, 0, 0, 0, 0, 0, 0, 0, 0, 0, 0,
  0, 0, 0, 0, 0, 0, 0, 0, 0, 0, 0, 0, 0, 0, 0, 0, 0, 0, 0, 0, 0, 0, 0, 0,
  0, 0, 0, 0, 0, 0, 0, 0, 0, 0, 0, 0, 0, 0, 0, 0, 0, 0, 0, 0]

/-- Part of _StdTok_from_state_actions, scanner_utf8.c 3681–3857. -/
def fromState2 : List Nat := [0, 0, 0, 0, 0, 0, 0, 0, 0, 0, 0, 0, 0, 0, 0, 0, 0, 0, 0, 0, 0, 0, 0, 0,
  0, 0, 0, 0, 0, 0, 0, 0, 0, 0, 0, 0, 0, 0, 0, 0, 0, 0, 0, 0, 0, 0, 0, 0,
  0, 0, 0, 0, 0, 0, 0, 0, 0, 0, 0, 0, 0, 0, 0, 0, 0, 0, 0, 0, 0, 0, 0, 0,
  0, 0, 0, 0, 0, 0, 0, 0, 0, 0, 0, 0, 0, 0, 0, 0, 0, 0, 0, 0, 0, 0, 0, 0,
  0, 0, 0, 0, 0, 0, 0, 0, 0, 0, 0, 0, 0, 0, 0, 0, 0, 0, 0, 0, 0, 0, 0, 0,
  0, 0, 0, 0, 0, 0, 0, 0, 0, 0, 0, 0, 0, 0, 0, 0, 0, 0, 0, 0, 0, 0, 0, 0,
  0, 0, 0, 0, 0, 0, 0, 0, 0, 0, 0, 0, 0, 0, 0, 0, 0, 0, 0, 0, 0, 0, 0, 0,
  0, 0, 0, 0, 0, 0, 0, 0, 0, 0, 0, 0, 0, 0, 0, 0, 0, 0, 0, 0, 0, 0, 0, 0,
  0, 0, 0, 0, 0, 0, 0, 0, 0, 0, 0, 0, 0, 0, 0, 0, 0, 0, 0, 0, 0, 0, 0, 0,
  0, 0, 0, 0, 0, 0, 0, 0, 0, 0, 0, 0, 0, 0, 0, 0, 0, 0, 0, 0, 0, 0, 0, 0,
  0, 0, 0, 0, 0, 0, 0, 0, 0, 0, 0, 0, 0, 0, 0, 0, 0, 0, 0, 0, 0, 0, 0, 0,
  0, 0, 0, 0, 0, 0, 0, 0, 0, 0, 0, 0, 0, 0, 0, 0, 0, 0, 0, 0, 0, 0, 0, 0,
  0, 0, 0, 0, 0, 0, 0, 0, 0, 0, 0, 0, 0, 0, 0, 0, 0, 9, 0, 0, 0, 0, 0, 0,
  0, 0, 0, 0, 0, 0, 0, 0, 0, 0, 0, 0, 0, 0, 0, 0, 0, 0, 0, 0, 0, 0, 0, 0,
  0, 0, 0, 0, 0, 0, 0, 0, 0, 0, 0, 0, 0, 0, 0, 0, 0, 0, 0, 0, 0, 0, 0, 0,
  0, 0, 0, 0, 0, 0, 0, 0, 0, 0, 0, 0, 0, 0, 0, 0, 0, 0, 0, 0, 0, 0, 0, 0,
  0, 0, 0, 0, 0, 0, 0, 0, 0, 0, 0, 0, 0, 0, 0]

/-- _StdTok_from_state_actions, scanner_utf8.c 3681–3857. -/
def fromState : List Nat := fromState0 ++ (fromState1 ++ (fromState2))

/-- The tables. -/
def tables : Tables :=
  ⟨actions, keyOffsets, transKeys, singles, ranges, indexOffsets, indicies, targs, tacts, toState, fromState⟩

/-- The actions by number, scanner_utf8.c 4165–4355, 4095–4098, 4364–4367. -/
def act : List Act := [.skip,
  .trunc,
  .call 1305,
  .tsNull,
  .tsHere,
  .mark,
  .setAct 1,
  .setAct 2,
  .setAct 3,
  .setAct 4,
  .setAct 5,
  .setAct 6,
  .setAct 7,
  .setAct 8,
  .setAct 9,
  .setAct 10,
  .setAct 11,
  .setAct 13,
  .emit .next none false,
  .emit .next (some 2) false,
  .emit .next none false,
  .stop,
  .pass .next,
  .emit .here none false,
  .emit .here none false,
  .emit .here (some 1) false,
  .emit .here none false,
  .emit .here none false,
  .emit .here none false,
  .emit .here none true,
  .emit .here none false,
  .emit .here none false,
  .pass .here,
  .emit .back none false,
  .emit .back none false,
  .emit .back none false,
  .emit .back none false,
  .emit .back none false,
  .pass .back,
  .switch]

/-- What is done with what was matched last, by the number of the pattern, scanner_utf8.c 4315–4352. -/
def case : Nat → Option Act
  | 1 => some (.emit .back none false)
  | 2 => some (.emit .back none false)
  | 3 => some (.emit .back (some 1) false)
  | 4 => some (.emit .back (some 2) false)
  | 5 => some (.emit .back none false)
  | 6 => some (.emit .back none false)
  | 7 => some (.emit .back none false)
  | 8 => some (.emit .back none false)
  | 9 => some (.emit .back none true)
  | 10 => some (.emit .back none false)
  | 11 => some (.emit .back none false)
  | 13 => some (.pass .back)
  | _ => none

/-- frt_std_scan_utf8, scanner_utf8.c 4036–4042, 4046–4420. -/
def machine : Machine := ⟨tables, act, case, 1⟩

end Ferret.Scan.Utf8

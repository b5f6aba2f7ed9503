/-! # dsp/wavelet/Wavelet.cpp, Wavelet.h: the table of filters

Generated from the source: the literals of dsp/wavelet/Wavelet.cpp, all written there with fourteen decimals, as integers in units of 10^-14. -/

namespace QM.Wavelet

/-- `Wavelet::Type`, dsp/wavelet/Wavelet.h:23-69. -/
inductive WType where
  | Haar
  | Daubechies_2
  | Daubechies_3
  | Daubechies_4
  | Daubechies_5
  | Daubechies_6
  | Daubechies_7
  | Daubechies_8
  | Daubechies_9
  | Daubechies_10
  | Daubechies_20
  | Daubechies_40
  | Symlet_2
  | Symlet_3
  | Symlet_4
  | Symlet_5
  | Symlet_6
  | Symlet_7
  | Symlet_8
  | Symlet_9
  | Symlet_10
  | Symlet_20
  | Symlet_30
  | Coiflet_1
  | Coiflet_2
  | Coiflet_3
  | Coiflet_4
  | Coiflet_5
  | Biorthogonal_1_3
  | Biorthogonal_1_5
  | Biorthogonal_2_2
  | Biorthogonal_2_4
  | Biorthogonal_2_6
  | Biorthogonal_2_8
  | Biorthogonal_3_1
  | Biorthogonal_3_3
  | Biorthogonal_3_5
  | Biorthogonal_3_7
  | Biorthogonal_3_9
  | Biorthogonal_4_4
  | Biorthogonal_5_5
  | Biorthogonal_6_8
  | Meyer
  deriving DecidableEq, Repr

/-- Every value of the enumeration. -/
def WType.all : List WType :=
  [.Haar, .Daubechies_2, .Daubechies_3, .Daubechies_4, .Daubechies_5, .Daubechies_6, .Daubechies_7, .Daubechies_8,
   .Daubechies_9, .Daubechies_10, .Daubechies_20, .Daubechies_40, .Symlet_2, .Symlet_3, .Symlet_4, .Symlet_5,
   .Symlet_6, .Symlet_7, .Symlet_8, .Symlet_9, .Symlet_10, .Symlet_20, .Symlet_30, .Coiflet_1,
   .Coiflet_2, .Coiflet_3, .Coiflet_4, .Coiflet_5, .Biorthogonal_1_3, .Biorthogonal_1_5, .Biorthogonal_2_2, .Biorthogonal_2_4,
   .Biorthogonal_2_6, .Biorthogonal_2_8, .Biorthogonal_3_1, .Biorthogonal_3_3, .Biorthogonal_3_5, .Biorthogonal_3_7, .Biorthogonal_3_9, .Biorthogonal_4_4,
   .Biorthogonal_5_5, .Biorthogonal_6_8, .Meyer]

/-- `Wavelet::getWaveletName`, dsp/wavelet/Wavelet.cpp:19-70. -/
def name : WType → String
  | .Haar => "Haar"
  | .Daubechies_2 => "Daubechies 2"
  | .Daubechies_3 => "Daubechies 3"
  | .Daubechies_4 => "Daubechies 4"
  | .Daubechies_5 => "Daubechies 5"
  | .Daubechies_6 => "Daubechies 6"
  | .Daubechies_7 => "Daubechies 7"
  | .Daubechies_8 => "Daubechies 8"
  | .Daubechies_9 => "Daubechies 9"
  | .Daubechies_10 => "Daubechies 10"
  | .Daubechies_20 => "Daubechies 20"
  | .Daubechies_40 => "Daubechies 40"
  | .Symlet_2 => "Symlet 2"
  | .Symlet_3 => "Symlet 3"
  | .Symlet_4 => "Symlet 4"
  | .Symlet_5 => "Symlet 5"
  | .Symlet_6 => "Symlet 6"
  | .Symlet_7 => "Symlet 7"
  | .Symlet_8 => "Symlet 8"
  | .Symlet_9 => "Symlet 9"
  | .Symlet_10 => "Symlet 10"
  | .Symlet_20 => "Symlet 20"
  | .Symlet_30 => "Symlet 30"
  | .Coiflet_1 => "Coiflet 1"
  | .Coiflet_2 => "Coiflet 2"
  | .Coiflet_3 => "Coiflet 3"
  | .Coiflet_4 => "Coiflet 4"
  | .Coiflet_5 => "Coiflet 5"
  | .Biorthogonal_1_3 => "Biorthogonal 1.3"
  | .Biorthogonal_1_5 => "Biorthogonal 1.5"
  | .Biorthogonal_2_2 => "Biorthogonal 2.2"
  | .Biorthogonal_2_4 => "Biorthogonal 2.4"
  | .Biorthogonal_2_6 => "Biorthogonal 2.6"
  | .Biorthogonal_2_8 => "Biorthogonal 2.8"
  | .Biorthogonal_3_1 => "Biorthogonal 3.1"
  | .Biorthogonal_3_3 => "Biorthogonal 3.3"
  | .Biorthogonal_3_5 => "Biorthogonal 3.5"
  | .Biorthogonal_3_7 => "Biorthogonal 3.7"
  | .Biorthogonal_3_9 => "Biorthogonal 3.9"
  | .Biorthogonal_4_4 => "Biorthogonal 4.4"
  | .Biorthogonal_5_5 => "Biorthogonal 5.5"
  | .Biorthogonal_6_8 => "Biorthogonal 6.8"
  | .Meyer => "Meyer"

/-- The literals pushed onto `lpd`, in order. -/
def low : WType → List Int
  -- dsp/wavelet/Wavelet.cpp:84-89
  | .Haar => [70710678118655, 70710678118655]
  -- dsp/wavelet/Wavelet.cpp:92-101
  | .Daubechies_2 => [-12940952255092, 22414386804186, 83651630373747, 48296291314469]
  -- dsp/wavelet/Wavelet.cpp:104-117
  | .Daubechies_3 => [3522629188210, -8544127388224, -13501102001039, 45987750211933, 80689150931334, 33267055295096]
  -- dsp/wavelet/Wavelet.cpp:120-137
  | .Daubechies_4 => [-1059740178500, 3288301166698, 3084138183599, -18703481171888, -2798376941698, 63088076792959, 71484657055254, 23037781330886]
  -- dsp/wavelet/Wavelet.cpp:140-161
  | .Daubechies_5 => [333572528500, -1258075199902, -624149021301, 7757149384007, -3224486958503, -24229488706619, 13842814590110, 72430852843857, 60382926979747,
    16010239797413]
  -- dsp/wavelet/Wavelet.cpp:164-189
  | .Daubechies_6 => [-107730108500, 477725751101, 55384220099, -3158203931803, 2752286553002, 9750160558708, -12976686756710, -22626469396517, 31525035170924,
    75113390802158, 49462389039839, 11154074335008]
  -- dsp/wavelet/Wavelet.cpp:192-221
  | .Daubechies_7 => [35371380000, -180164070400, 42957797300, 1255099855601, -1657454163102, -3802993693503, 8061260915107, 7130921926705, -22403618499417,
    -14390600392911, 46978228740536, 72913209084656, 39653931948231, 7785205408506]
  -- dsp/wavelet/Wavelet.cpp:224-257
  | .Daubechies_8 => [-11747678400, 67544940600, -39174037300, -487035299301, 874609404702, 1398102791702, -4408825393106, -1736930100202, 12874742662019, 47248457400,
    -28401554296243, -1582910525602, 58535468365487, 67563073629801, 31287159091447, 5441584224308]
  -- dsp/wavelet/Wavelet.cpp:260-297
  | .Daubechies_9 => [3934732000, -25196318900, 23038576400, 184764688296, -428150368190, -472320475789, 2236166212352, 25094711499, -6763282905952, 3072568147832,
    14854074933476, -9684078322088, -29327378327259, 13319738582209, 65728807803664, 60482312367678, 24383467463767, 3807794736317]
  -- dsp/wavelet/Wavelet.cpp:300-341
  | .Daubechies_10 => [-1326420300, 9358867000, -11646685499, -68585669500, 199240529499, 139535174699, -1073317548298, 360655356699, 3321267405893, -2945753682195,
    -7139414716586, 9305736460381, 12736934033574, -19594627437660, -24984642432649, 28117234366043, 68845903945259, 52720118893092, 18817680007762,
    2667005790095]
  -- dsp/wavelet/Wavelet.cpp:344-425
  | .Daubechies_20 => [-29988, 405613, -1814843, 20143, 26339242, -68470796, -101199401, 724124829, -437614386, -3710586183, 6774280828, 10153288973, -38510474870,
    -5349759845, 139255961930, -83156217284, -358149425960, 442054238705, 672162730228, -1381052613705, -878932492387, 3229429953057, 587468181179,
    -6172289962416, 563224685793, 10229171917503, -2471682733721, -15545875070532, 3985024645854, 22829105081947, -1672708830868, -32678680043239,
    -13921208801080, 36150229873767, 61049323893578, 47269618530872, 21994211355038, 6342378045879, 1054939462490, 77995361366]
  -- dsp/wavelet/Wavelet.cpp:428-589
  | .Daubechies_40 => [0, 0, 0, 0, 0, -1, 3, -1, -37, 121, 108, -1441, 1995, 8134, -29288, -9963, 205938, -227332, -873967, 2288390, 1741059, -12745008, 5361186,
    48834273, -66863337, -128043283, 350778202, 165493877, -1288842174, 406557792, 3629399945, -3566632371, -7878802614, 14251943335, 12109867291,
    -41818330353, -7088554491, 99285797789, -31193527356, -197480748041, 148388984367, 332132500594, -412431015737, -467322831674, 901902126682,
    524573780794, -1682072694998, -388701203892, 2781129406516, -59370667303, -4179364874023, 895082555981, 5834125954654, -2094317414735,
    -7729538082012, 3492832601473, 9941959711973, -4741061635274, -12673146574763, 5216571236437, 16185493481917, -3814703831047, -20452405393126,
    -1395065907035, 24017584511066, 13119716231525, -21027451192673, -31275608334174, -2817037418845, 35209361261033, 51902874766301, 43815806016110,
    25977619424035, 11476477757177, 3842788992792, 969841552091, 179808920458, 23209364055, 1869221611, 70900603]
  -- dsp/wavelet/Wavelet.cpp:592-601
  | .Symlet_2 => [-12940952255092, 22414386804186, 83651630373747, 48296291314469]
  -- dsp/wavelet/Wavelet.cpp:604-617
  | .Symlet_3 => [3522629188210, -8544127388224, -13501102001039, 45987750211933, 80689150931334, 33267055295096]
  -- dsp/wavelet/Wavelet.cpp:620-637
  | .Symlet_4 => [-7576571478927, -2963552764600, 49761866763202, 80373875180592, 29785779560528, -9921954357685, -1260396726204, 3222310060404]
  -- dsp/wavelet/Wavelet.cpp:640-661
  | .Symlet_5 => [2733306834508, 2951949092577, -3913424930238, 19939753397739, 72340769040242, 63397896345821, 1660210576452, -17532808990845, -2110183402476,
    1953888273529]
  -- dsp/wavelet/Wavelet.cpp:664-689
  | .Symlet_6 => [1540410932703, 349071208422, -11799011114819, -4831174258563, 49105594192675, 78764114103019, 33792942172762, -7263752278646, -2106029251230,
    4472490177067, 176771186424, -780070832503]
  -- dsp/wavelet/Wavelet.cpp:692-721
  | .Symlet_7 => [268181456826, -104738488868, -1263630340325, 3051551316596, 6789269350137, -4955283493713, 1744125508686, 53610191709176, 76776431700316,
    28862963175151, -14004724044296, -10780823770382, 401024487153, 1026817670851]
  -- dsp/wavelet/Wavelet.cpp:724-757
  | .Symlet_8 => [-338241595101, -54213233179, 3169508781149, 760748732492, -14329423835081, -6127335906766, 48135965125837, 77718575170052, 36444189483533,
    -5194583810771, -2721902991706, 4913717967361, 380875201389, -1495225833705, -30292051472, 188995033276]
  -- dsp/wavelet/Wavelet.cpp:760-797
  | .Symlet_9 => [140091552591, 61978088899, -1327196778182, -1152821020768, 3022487885828, 58346274612, -5456895843083, 23876091460730, 71789708276441,
    61733844914094, 3527248803527, -19155083129728, -1823377077940, 6207778930289, 885926749340, -1026406402763, -47315449868, 106949003291]
  -- dsp/wavelet/Wavelet.cpp:800-841
  | .Symlet_10 => [77015980911, 9563267072, -864129927702, -146538258130, 4592723923109, 1160989390371, -15949427888491, -7088053578323, 47169066693845,
    76951003702110, 38382676106707, -3553674047383, -3199005688243, 4999497207737, 576491203358, -2035493981231, -80435893202, 459317358531,
    5703608362, -45932942100]
  -- dsp/wavelet/Wavelet.cpp:844-925
  | .Symlet_20 => [36955375, -19015676, -791936141, 302566606, 7992967836, -1928412301, -49473109157, 7215991188, 208899470819, -30526283181, -660658579912,
    142308735944, 1700404902335, -331385738375, -3162943714501, 812322835637, 2557934951027, -7899434492693, -2981936887758, 40583144435233,
    75116272842520, 47199147510012, -5108834292497, -16057829841831, 3625095165278, 8891966802764, -684370196580, -3537333675714, 193859706711,
    1215704094879, -61112638583, -347164780287, 12544091723, 74761085979, -2661555034, -11739133516, 452542221, 1228725278, -32567026, -63291290]
  -- dsp/wavelet/Wavelet.cpp:928-1049
  | .Symlet_30 => [-32641, 14934, 1014810, -380480, -14986093, 5465704, 142300535, -55432777, -989667666, 402586608, 5384705071, -2120203482, -23724381672,
    8209438737, 86145325795, -23156681831, -258964866287, 46642571155, 645416706920, -51919282891, -1284118837655, 37212345706, 1829725025850,
    -795200356952, -2521794435506, 2965858822312, 2927100294045, -9630227559219, -3849155121162, 40072250790936, 74269376814242, 48469805553706,
    -2843778080778, -16204679936904, 2619852204894, 8910160832786, -1523693234758, -4889669606591, 760939409040, 2556854558808, -162932098036,
    -1038876672659, 54379809563, 371380689803, -27628401612, -119692132405, 11735865251, 34385220669, -3293175202, -8272690387, 647382532,
    1589700426, -89828423, -232354967, 8995011, 24412960, -612778, -1650488, 25363, 55439]
  -- dsp/wavelet/Wavelet.cpp:1052-1065
  | .Coiflet_1 => [-1565572813546, -7273261951285, 38486484686420, 85257202021226, 33789766245781, -7273261951285]
  -- dsp/wavelet/Wavelet.cpp:1068-1093
  | .Coiflet_2 => [-72054944536, -182320887070, 561143481939, 2368017194633, -5943441864646, -7648859907831, 41700518442169, 81272363544554, 38611006682116,
    -6737255472196, -4146493678176, 1638733646352]
  -- dsp/wavelet/Wavelet.cpp:1096-1133
  | .Coiflet_3 => [-3459977284, -7098330314, 46621696011, 111751877089, -257451768875, -900797613666, 1588054486362, 3455502757306, -8230192710689, -7179982161931,
    42848347637762, 79377722262562, 40517690240962, -6112339000267, -6577191128186, 2345269614184, 778259642733, -379351286449]
  -- dsp/wavelet/Wavelet.cpp:1136-1185
  | .Coiflet_4 => [-178498500, -325968024, 3122987587, 6233903446, -25997455249, -58902075624, 126656192930, 375143615728, -565828668661, -1521173152795,
    2508226184486, 3933442712334, -9622044203399, -6662747426343, 43438605649147, 78223893092050, 41530840703043, -5607731331675, -8126669968088,
    2668230015605, 1606894396478, -734616632764, -162949201260, 89231366858]
  -- dsp/wavelet/Wavelet.cpp:1188-1249
  | .Coiflet_5 => [-9517657, -16744289, 206376185, 373465518, -2131502681, -4134043227, 14054114970, 30225958181, -63813134305, -166286370201, 243337321266,
    676418544805, -916423116248, -1976177894257, 3268357426711, 4128920875018, -10557420870334, -6203596396290, 43799162617184, 77428960365296,
    42156620669085, -5204316317624, -9192001055970, 2816802897094, 2340815678584, -1013111751985, -415935878139, 217823635811, 35858968790,
    -21208083980]
  -- dsp/wavelet/Wavelet.cpp:1252-1265
  | .Biorthogonal_1_3 => [-8838834764832, 8838834764832, 70710678118655, 70710678118655, 8838834764832, -8838834764832]
  -- dsp/wavelet/Wavelet.cpp:1268-1289
  | .Biorthogonal_1_5 => [1657281518406, -1657281518406, -12153397801644, 12153397801644, 70710678118655, 70710678118655, 12153397801644, -12153397801644, -1657281518406,
    1657281518406]
  -- dsp/wavelet/Wavelet.cpp:1292-1305
  | .Biorthogonal_2_2 => [0, -17677669529664, 35355339059327, 106066017177982, 35355339059327, -17677669529664]
  -- dsp/wavelet/Wavelet.cpp:1308-1329
  | .Biorthogonal_2_4 => [0, 3314563036812, -6629126073624, -17677669529664, 41984465132951, 99436891104358, 41984465132951, -17677669529664, -6629126073624, 3314563036812]
  -- dsp/wavelet/Wavelet.cpp:1333-1362
  | .Biorthogonal_2_6 => [0, -690533966002, 1381067932005, 4695630968817, -10772329869639, -16987135563661, 44746600996961, 96674755240348, 44746600996961,
    -16987135563661, -10772329869639, 4695630968817, 1381067932005, -690533966002]
  -- dsp/wavelet/Wavelet.cpp:1365-1402
  | .Biorthogonal_2_8 => [0, 151054305063, -302108610126, -1294751186255, 2891610982635, 5299848189069, -13491307360774, -16382918343409, 46257144047592, 95164212189718,
    46257144047592, -16382918343409, -13491307360774, 5299848189069, 2891610982635, -1294751186255, -302108610126, 151054305063]
  -- dsp/wavelet/Wavelet.cpp:1405-1414
  | .Biorthogonal_3_1 => [-35355339059327, 106066017177982, 106066017177982, -35355339059327]
  -- dsp/wavelet/Wavelet.cpp:1417-1434
  | .Biorthogonal_3_3 => [6629126073624, -19887378220872, -15467960838456, 99436891104358, 99436891104358, -15467960838456, -19887378220872, 6629126073624]
  -- dsp/wavelet/Wavelet.cpp:1437-1462
  | .Biorthogonal_3_5 => [-1381067932005, 4143203796015, 5248058141619, -26792717880897, -7181553246426, 96674755240348, 96674755240348, -7181553246426, -26792717880897,
    5248058141619, 4143203796015, -1381067932005]
  -- dsp/wavelet/Wavelet.cpp:1465-1498
  | .Biorthogonal_3_7 => [302108610126, -906325830378, -1683176542131, 7466398507402, 3133297870736, -30115912592284, -2649924094535, 95164212189718, 95164212189718,
    -2649924094535, -30115912592284, 3133297870736, 7466398507402, -1683176542131, -906325830378, 302108610126]
  -- dsp/wavelet/Wavelet.cpp:1501-1542
  | .Biorthogonal_3_9 => [-67974437278, 203923311835, 506031921961, -2061891264111, -1411278793018, 9913478249423, 1230013626942, -32019196836078, 205002271157,
    94212570067821, 94212570067821, 205002271157, -32019196836078, 1230013626942, 9913478249423, -1411278793018, -2061891264111, 506031921961,
    203923311835, -67974437278]
  -- dsp/wavelet/Wavelet.cpp:1545-1566
  | .Biorthogonal_4_4 => [0, 3782845550726, -2384946501956, -11062440441844, 37740285561283, 85269867900889, 37740285561283, -11062440441844, -2384946501956, 3782845550726]
  -- dsp/wavelet/Wavelet.cpp:1569-1594
  | .Biorthogonal_5_5 => [0, 0, 3968708834741, 794810863724, -5446378846824, 34560528195603, 73666018142821, 34560528195603, -5446378846824, 794810863724, 3968708834741, 0]
  -- dsp/wavelet/Wavelet.cpp:1597-1634
  | .Biorthogonal_6_8 => [0, 190883173648, -191428612909, -1699063986760, 1193456527973, 4973290349094, -7726317316720, -9405920349574, 42079628460983, 82592299745840,
    42079628460983, -9405920349574, -7726317316720, 4973290349094, 1193456527973, -1699063986760, -191428612909, 190883173648]
  -- dsp/wavelet/Wavelet.cpp:1637-1842
  | .Meyer => [0, -150974086, 127876676, 44958556, -209656887, 172322355, 69808228, -287940803, 238314839, 98251560, -421778919, 335350154, 167472186,
    -603450134, 483755580, 240228802, -955630985, 721652769, 484907830, -1420692858, 1050391427, 618758030, -2443800585, 2010638769, 1499352360,
    -4642876428, 3234131191, 3740966576, -10277900508, 2446195684, 14971351539, -7559287026, -13991314822, -9351289388, 16118981973, 85950021376,
    -57818579527, -270216873394, 219477533646, 604551059646, -638672861855, -1104464190054, 1525091315859, 1740388821018, -3209406335451,
    -2432178395952, 6366730088447, 3062124394342, -13269661535886, -3504828739060, 44409503076653, 74375100490379, 44409503076653, -3504828739060,
    -13269661535886, 3062124394342, 6366730088447, -2432178395952, -3209406335451, 1740388821018, 1525091315859, -1104464190054, -638672861855,
    604551059646, 219477533646, -270216873394, -57818579527, 85950021376, 16118981973, -9351289388, -13991314822, -7559287026, 14971351539,
    2446195684, -10277900508, 3740966576, 3234131191, -4642876428, 1499352360, 2010638769, -2443800585, 618758030, 1050391427, -1420692858,
    484907830, 721652769, -955630985, 240228802, 483755580, -603450134, 167472186, 335350154, -421778919, 98251560, 238314839, -287940803, 69808228,
    172322355, -209656887, 44958556, 127876676, -150974086]

/-- The literals pushed onto `hpd`, in order. -/
def high : WType → List Int
  -- dsp/wavelet/Wavelet.cpp:84-89
  | .Haar => [-70710678118655, 70710678118655]
  -- dsp/wavelet/Wavelet.cpp:92-101
  | .Daubechies_2 => [-48296291314469, 83651630373747, -22414386804186, -12940952255092]
  -- dsp/wavelet/Wavelet.cpp:104-117
  | .Daubechies_3 => [-33267055295096, 80689150931334, -45987750211933, -13501102001039, 8544127388224, 3522629188210]
  -- dsp/wavelet/Wavelet.cpp:120-137
  | .Daubechies_4 => [-23037781330886, 71484657055254, -63088076792959, -2798376941698, 18703481171888, 3084138183599, -3288301166698, -1059740178500]
  -- dsp/wavelet/Wavelet.cpp:140-161
  | .Daubechies_5 => [-16010239797413, 60382926979747, -72430852843857, 13842814590110, 24229488706619, -3224486958503, -7757149384007, -624149021301, 1258075199902,
    333572528500]
  -- dsp/wavelet/Wavelet.cpp:164-189
  | .Daubechies_6 => [-11154074335008, 49462389039839, -75113390802158, 31525035170924, 22626469396517, -12976686756710, -9750160558708, 2752286553002, 3158203931803,
    55384220099, -477725751101, -107730108500]
  -- dsp/wavelet/Wavelet.cpp:192-221
  | .Daubechies_7 => [-7785205408506, 39653931948231, -72913209084656, 46978228740536, 14390600392911, -22403618499417, -7130921926705, 8061260915107, 3802993693503,
    -1657454163102, -1255099855601, 42957797300, 180164070400, 35371380000]
  -- dsp/wavelet/Wavelet.cpp:224-257
  | .Daubechies_8 => [-5441584224308, 31287159091447, -67563073629801, 58535468365487, 1582910525602, -28401554296243, -47248457400, 12874742662019, 1736930100202,
    -4408825393106, -1398102791702, 874609404702, 487035299301, -39174037300, -67544940600, -11747678400]
  -- dsp/wavelet/Wavelet.cpp:260-297
  | .Daubechies_9 => [-3807794736317, 24383467463767, -60482312367678, 65728807803664, -13319738582209, -29327378327259, 9684078322088, 14854074933476, -3072568147832,
    -6763282905952, -25094711499, 2236166212352, 472320475789, -428150368190, -184764688296, 23038576400, 25196318900, 3934732000]
  -- dsp/wavelet/Wavelet.cpp:300-341
  | .Daubechies_10 => [-2667005790095, 18817680007762, -52720118893092, 68845903945259, -28117234366043, -24984642432649, 19594627437660, 12736934033574,
    -9305736460381, -7139414716586, 2945753682195, 3321267405893, -360655356699, -1073317548298, -139535174699, 199240529499, 68585669500,
    -11646685499, -9358867000, -1326420300]
  -- dsp/wavelet/Wavelet.cpp:344-425
  | .Daubechies_20 => [-77995361366, 1054939462490, -6342378045879, 21994211355038, -47269618530872, 61049323893578, -36150229873767, -13921208801080, 32678680043239,
    -1672708830868, -22829105081947, 3985024645854, 15545875070532, -2471682733721, -10229171917503, 563224685793, 6172289962416, 587468181179,
    -3229429953057, -878932492387, 1381052613705, 672162730228, -442054238705, -358149425960, 83156217284, 139255961930, 5349759845, -38510474870,
    -10153288973, 6774280828, 3710586183, -437614386, -724124829, -101199401, 68470796, 26339242, -20143, -1814843, -405613, -29988]
  -- dsp/wavelet/Wavelet.cpp:428-589
  | .Daubechies_40 => [-70900603, 1869221611, -23209364055, 179808920458, -969841552091, 3842788992792, -11476477757177, 25977619424035, -43815806016110,
    51902874766301, -35209361261033, -2817037418845, 31275608334174, -21027451192673, -13119716231525, 24017584511066, 1395065907035,
    -20452405393126, 3814703831047, 16185493481917, -5216571236437, -12673146574763, 4741061635274, 9941959711973, -3492832601473, -7729538082012,
    2094317414735, 5834125954654, -895082555981, -4179364874023, 59370667303, 2781129406516, 388701203892, -1682072694998, -524573780794,
    901902126682, 467322831674, -412431015737, -332132500594, 148388984367, 197480748041, -31193527356, -99285797789, -7088554491, 41818330353,
    12109867291, -14251943335, -7878802614, 3566632371, 3629399945, -406557792, -1288842174, -165493877, 350778202, 128043283, -66863337, -48834273,
    5361186, 12745008, 1741059, -2288390, -873967, 227332, 205938, 9963, -29288, -8134, 1995, 1441, 108, -121, -37, 1, 3, 1, 0, 0, 0, 0, 0]
  -- dsp/wavelet/Wavelet.cpp:592-601
  | .Symlet_2 => [-48296291314469, 83651630373747, -22414386804186, -12940952255092]
  -- dsp/wavelet/Wavelet.cpp:604-617
  | .Symlet_3 => [-33267055295096, 80689150931334, -45987750211933, -13501102001039, 8544127388224, 3522629188210]
  -- dsp/wavelet/Wavelet.cpp:620-637
  | .Symlet_4 => [-3222310060404, -1260396726204, 9921954357685, 29785779560528, -80373875180592, 49761866763202, 2963552764600, -7576571478927]
  -- dsp/wavelet/Wavelet.cpp:640-661
  | .Symlet_5 => [-1953888273529, -2110183402476, 17532808990845, 1660210576452, -63397896345821, 72340769040242, -19939753397739, -3913424930238, -2951949092577,
    2733306834508]
  -- dsp/wavelet/Wavelet.cpp:664-689
  | .Symlet_6 => [780070832503, 176771186424, -4472490177067, -2106029251230, 7263752278646, 33792942172762, -78764114103019, 49105594192675, 4831174258563,
    -11799011114819, -349071208422, 1540410932703]
  -- dsp/wavelet/Wavelet.cpp:692-721
  | .Symlet_7 => [-1026817670851, 401024487153, 10780823770382, -14004724044296, -28862963175151, 76776431700316, -53610191709176, 1744125508686, 4955283493713,
    6789269350137, -3051551316596, -1263630340325, 104738488868, 268181456826]
  -- dsp/wavelet/Wavelet.cpp:724-757
  | .Symlet_8 => [-188995033276, -30292051472, 1495225833705, 380875201389, -4913717967361, -2721902991706, 5194583810771, 36444189483533, -77718575170052,
    48135965125837, 6127335906766, -14329423835081, -760748732492, 3169508781149, 54213233179, -338241595101]
  -- dsp/wavelet/Wavelet.cpp:760-797
  | .Symlet_9 => [-106949003291, -47315449868, 1026406402763, 885926749340, -6207778930289, -1823377077940, 19155083129728, 3527248803527, -61733844914094,
    71789708276441, -23876091460730, -5456895843083, -58346274612, 3022487885828, 1152821020768, -1327196778182, -61978088899, 140091552591]
  -- dsp/wavelet/Wavelet.cpp:800-841
  | .Symlet_10 => [45932942100, 5703608362, -459317358531, -80435893202, 2035493981231, 576491203358, -4999497207737, -3199005688243, 3553674047383, 38382676106707,
    -76951003702110, 47169066693845, 7088053578323, -15949427888491, -1160989390371, 4592723923109, 146538258130, -864129927702, -9563267072,
    77015980911]
  -- dsp/wavelet/Wavelet.cpp:844-925
  | .Symlet_20 => [63291290, -32567026, -1228725278, 452542221, 11739133516, -2661555034, -74761085979, 12544091723, 347164780287, -61112638583, -1215704094879,
    193859706711, 3537333675714, -684370196580, -8891966802764, 3625095165278, 16057829841831, -5108834292497, -47199147510012, 75116272842520,
    -40583144435233, -2981936887758, 7899434492693, 2557934951027, -812322835637, -3162943714501, 331385738375, 1700404902335, -142308735944,
    -660658579912, 30526283181, 208899470819, -7215991188, -49473109157, 1928412301, 7992967836, -302566606, -791936141, 19015676, 36955375]
  -- dsp/wavelet/Wavelet.cpp:928-1049
  | .Symlet_30 => [-55439, 25363, 1650488, -612778, -24412960, 8995011, 232354967, -89828423, -1589700426, 647382532, 8272690387, -3293175202, -34385220669,
    11735865251, 119692132405, -27628401612, -371380689803, 54379809563, 1038876672659, -162932098036, -2556854558808, 760939409040, 4889669606591,
    -1523693234758, -8910160832786, 2619852204894, 16204679936904, -2843778080778, -48469805553706, 74269376814242, -40072250790936, -3849155121162,
    9630227559219, 2927100294045, -2965858822312, -2521794435506, 795200356952, 1829725025850, -37212345706, -1284118837655, 51919282891,
    645416706920, -46642571155, -258964866287, 23156681831, 86145325795, -8209438737, -23724381672, 2120203482, 5384705071, -402586608, -989667666,
    55432777, 142300535, -5465704, -14986093, 380480, 1014810, -14934, -32641]
  -- dsp/wavelet/Wavelet.cpp:1052-1065
  | .Coiflet_1 => [7273261951285, 33789766245781, -85257202021226, 38486484686420, 7273261951285, -1565572813546]
  -- dsp/wavelet/Wavelet.cpp:1068-1093
  | .Coiflet_2 => [-1638733646352, -4146493678176, 6737255472196, 38611006682116, -81272363544554, 41700518442169, 7648859907831, -5943441864646, -2368017194633,
    561143481939, 182320887070, -72054944536]
  -- dsp/wavelet/Wavelet.cpp:1096-1133
  | .Coiflet_3 => [379351286449, 778259642733, -2345269614184, -6577191128186, 6112339000267, 40517690240962, -79377722262562, 42848347637762, 7179982161931,
    -8230192710689, -3455502757306, 1588054486362, 900797613666, -257451768875, -111751877089, 46621696011, 7098330314, -3459977284]
  -- dsp/wavelet/Wavelet.cpp:1136-1185
  | .Coiflet_4 => [-89231366858, -162949201260, 734616632764, 1606894396478, -2668230015605, -8126669968088, 5607731331675, 41530840703043, -78223893092050,
    43438605649147, 6662747426343, -9622044203399, -3933442712334, 2508226184486, 1521173152795, -565828668661, -375143615728, 126656192930,
    58902075624, -25997455249, -6233903446, 3122987587, 325968024, -178498500]
  -- dsp/wavelet/Wavelet.cpp:1188-1249
  | .Coiflet_5 => [21208083980, 35858968790, -217823635811, -415935878139, 1013111751985, 2340815678584, -2816802897094, -9192001055970, 5204316317624,
    42156620669085, -77428960365296, 43799162617184, 6203596396290, -10557420870334, -4128920875018, 3268357426711, 1976177894257, -916423116248,
    -676418544805, 243337321266, 166286370201, -63813134305, -30225958181, 14054114970, 4134043227, -2131502681, -373465518, 206376185, 16744289,
    -9517657]
  -- dsp/wavelet/Wavelet.cpp:1252-1265
  | .Biorthogonal_1_3 => [0, 0, -70710678118655, 70710678118655, 0, 0]
  -- dsp/wavelet/Wavelet.cpp:1268-1289
  | .Biorthogonal_1_5 => [0, 0, 0, 0, -70710678118655, 70710678118655, 0, 0, 0, 0]
  -- dsp/wavelet/Wavelet.cpp:1292-1305
  | .Biorthogonal_2_2 => [0, 35355339059327, -70710678118655, 35355339059327, 0, 0]
  -- dsp/wavelet/Wavelet.cpp:1308-1329
  | .Biorthogonal_2_4 => [0, 0, 0, 35355339059327, -70710678118655, 35355339059327, 0, 0, 0, 0]
  -- dsp/wavelet/Wavelet.cpp:1333-1362
  | .Biorthogonal_2_6 => [0, 0, 0, 0, 0, 35355339059327, -70710678118655, 35355339059327, 0, 0, 0, 0, 0, 0]
  -- dsp/wavelet/Wavelet.cpp:1365-1402
  | .Biorthogonal_2_8 => [0, 0, 0, 0, 0, 0, 0, 35355339059327, -70710678118655, 35355339059327, 0, 0, 0, 0, 0, 0, 0, 0]
  -- dsp/wavelet/Wavelet.cpp:1405-1414
  | .Biorthogonal_3_1 => [-17677669529664, 53033008588991, -53033008588991, 17677669529664]
  -- dsp/wavelet/Wavelet.cpp:1417-1434
  | .Biorthogonal_3_3 => [0, 0, -17677669529664, 53033008588991, -53033008588991, 17677669529664, 0, 0]
  -- dsp/wavelet/Wavelet.cpp:1437-1462
  | .Biorthogonal_3_5 => [0, 0, 0, 0, -17677669529664, 53033008588991, -53033008588991, 17677669529664, 0, 0, 0, 0]
  -- dsp/wavelet/Wavelet.cpp:1465-1498
  | .Biorthogonal_3_7 => [0, 0, 0, 0, 0, 0, -17677669529664, 53033008588991, -53033008588991, 17677669529664, 0, 0, 0, 0, 0, 0]
  -- dsp/wavelet/Wavelet.cpp:1501-1542
  | .Biorthogonal_3_9 => [0, 0, 0, 0, 0, 0, 0, 0, -17677669529664, 53033008588991, -53033008588991, 17677669529664, 0, 0, 0, 0, 0, 0, 0, 0]
  -- dsp/wavelet/Wavelet.cpp:1545-1566
  | .Biorthogonal_4_4 => [0, -6453888262870, 4068941760916, 41809227322162, -78848561640558, 41809227322162, 4068941760916, -6453888262870, 0, 0]
  -- dsp/wavelet/Wavelet.cpp:1569-1594
  | .Biorthogonal_5_5 => [-1345670945912, -269496688011, 13670658466433, -9350469740094, -47680326579848, 89950610974865, -47680326579848, -9350469740094, 13670658466433,
    -269496688011, -1345670945912, 0]
  -- dsp/wavelet/Wavelet.cpp:1597-1634
  | .Biorthogonal_6_8 => [0, 0, 0, 1442628250562, -1446750489679, -7872200106263, 4036797903034, 41784910915027, -75890772945365, 41784910915027, 4036797903034,
    -7872200106263, -1446750489679, 1442628250562, 0, 0, 0, 0]
  -- dsp/wavelet/Wavelet.cpp:1637-1842
  | .Meyer => [150974086, 127876676, -44958556, -209656887, -172322355, 69808228, 287940803, 238314839, -98251560, -421778919, -335350154, 167472186, 603450134,
    483755580, -240228802, -955630985, -721652769, 484907830, 1420692858, 1050391427, -618758030, -2443800585, -2010638769, 1499352360, 4642876428,
    3234131191, -3740966576, -10277900508, -2446195684, 14971351539, 7559287026, -13991314822, 9351289388, 16118981973, -85950021376, -57818579527,
    270216873394, 219477533646, -604551059646, -638672861855, 1104464190054, 1525091315859, -1740388821018, -3209406335451, 2432178395952,
    6366730088447, -3062124394342, -13269661535886, 3504828739060, 44409503076653, -74375100490379, 44409503076653, 3504828739060, -13269661535886,
    -3062124394342, 6366730088447, 2432178395952, -3209406335451, -1740388821018, 1525091315859, 1104464190054, -638672861855, -604551059646,
    219477533646, 270216873394, -57818579527, -85950021376, 16118981973, 9351289388, -13991314822, 7559287026, 14971351539, -2446195684,
    -10277900508, -3740966576, 3234131191, 4642876428, 1499352360, -2010638769, -2443800585, -618758030, 1050391427, 1420692858, 484907830,
    -721652769, -955630985, -240228802, 483755580, 603450134, 167472186, -335350154, -421778919, -98251560, 238314839, 287940803, 69808228,
    -172322355, -209656887, -44958556, 127876676, 150974086, 0]

/-- `flength`. -/
def flength : WType → Nat
  | .Haar => 2
  | .Daubechies_2 => 4
  | .Daubechies_3 => 6
  | .Daubechies_4 => 8
  | .Daubechies_5 => 10
  | .Daubechies_6 => 12
  | .Daubechies_7 => 14
  | .Daubechies_8 => 16
  | .Daubechies_9 => 18
  | .Daubechies_10 => 20
  | .Daubechies_20 => 40
  | .Daubechies_40 => 80
  | .Symlet_2 => 4
  | .Symlet_3 => 6
  | .Symlet_4 => 8
  | .Symlet_5 => 10
  | .Symlet_6 => 12
  | .Symlet_7 => 14
  | .Symlet_8 => 16
  | .Symlet_9 => 18
  | .Symlet_10 => 20
  | .Symlet_20 => 40
  | .Symlet_30 => 60
  | .Coiflet_1 => 6
  | .Coiflet_2 => 12
  | .Coiflet_3 => 18
  | .Coiflet_4 => 24
  | .Coiflet_5 => 30
  | .Biorthogonal_1_3 => 6
  | .Biorthogonal_1_5 => 10
  | .Biorthogonal_2_2 => 6
  | .Biorthogonal_2_4 => 10
  | .Biorthogonal_2_6 => 14
  | .Biorthogonal_2_8 => 18
  | .Biorthogonal_3_1 => 4
  | .Biorthogonal_3_3 => 8
  | .Biorthogonal_3_5 => 12
  | .Biorthogonal_3_7 => 16
  | .Biorthogonal_3_9 => 20
  | .Biorthogonal_4_4 => 10
  | .Biorthogonal_5_5 => 12
  | .Biorthogonal_6_8 => 18
  | .Meyer => 102

end QM.Wavelet

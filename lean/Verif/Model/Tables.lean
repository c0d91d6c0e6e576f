/-!
# Coefficient tables (generated by tools/mktables.py from pandaresampler.cc; do not edit)

Every decimal literal is transcribed digit by digit.
-/

namespace Panda

/-- The decimal number `m / 10^e`, i.e. a floating point literal of the C++ source. (pandaresampler.cc:687-1065, 1228-1370) -/
structure Dec where
  m : Int
  e : Nat
  deriving DecidableEq, Repr

/-- Exact value of a literal. (pandaresampler.cc:687-1065, 1228-1370) -/
def Dec.toRat (d : Dec) : Rat := mkRat d.m (10 ^ d.e)

/-- pandaresampler.cc:691-745 `coeffs2_24[52]` (FIR) -/
def fir2x24 : List Dec := [
  ⟨-1896649020687189, 22⟩,
  ⟨89375397078734594, 23⟩,
  ⟨-29108958281584469, 22⟩,
  ⟨77609698680954118, 22⟩,
  ⟨-18119956302920787, 21⟩,
  ⟨38375105842230682, 21⟩,
  ⟨-75309071659470099, 21⟩,
  ⟨13889694095199994, 20⟩,
  ⟨-24318689587188649, 20⟩,
  ⟨40722732084584021, 20⟩,
  ⟨-65600665137277646, 20⟩,
  ⟨1021395018417595, 18⟩,
  ⟨-15431295374089733, 19⟩,
  ⟨22699842719303941, 19⟩,
  ⟨-32614400850958444, 19⟩,
  ⟨45904754831414861, 19⟩,
  ⟨-63486601639801904, 19⟩,
  ⟨86558345711950594, 19⟩,
  ⟨-11679015470590512, 18⟩,
  ⟨15670714074410223, 18⟩,
  ⟨-21051408534455165, 18⟩,
  ⟨28604536062639324, 18⟩,
  ⟨-40008178410666853, 18⟩,
  ⟨59644444619411124, 18⟩,
  ⟨-10364569487012831, 17⟩,
  ⟨31748269557078473, 17⟩,
  ⟨31748269557078473, 17⟩,
  ⟨-10364569487012831, 17⟩,
  ⟨59644444619411124, 18⟩,
  ⟨-40008178410666853, 18⟩,
  ⟨28604536062639324, 18⟩,
  ⟨-21051408534455165, 18⟩,
  ⟨15670714074410223, 18⟩,
  ⟨-11679015470590512, 18⟩,
  ⟨86558345711950594, 19⟩,
  ⟨-63486601639801904, 19⟩,
  ⟨45904754831414861, 19⟩,
  ⟨-32614400850958444, 19⟩,
  ⟨22699842719303941, 19⟩,
  ⟨-15431295374089733, 19⟩,
  ⟨1021395018417595, 18⟩,
  ⟨-65600665137277646, 20⟩,
  ⟨40722732084584021, 20⟩,
  ⟨-24318689587188649, 20⟩,
  ⟨13889694095199994, 20⟩,
  ⟨-75309071659470099, 21⟩,
  ⟨38375105842230682, 21⟩,
  ⟨-18119956302920787, 21⟩,
  ⟨77609698680954118, 22⟩,
  ⟨-29108958281584469, 22⟩,
  ⟨89375397078734594, 23⟩,
  ⟨-1896649020687189, 22⟩
]

/-- pandaresampler.cc:750-768 `coeffs4_24[16]` (FIR) -/
def fir4x24 : List Dec := [
  ⟨-78113862062895476, 22⟩,
  ⟨11777177340253331, 20⟩,
  ⟨-80979027642968178, 20⟩,
  ⟨35914299596685019, 19⟩,
  ⟨-11907675232141868, 18⟩,
  ⟨32618531462663004, 18⟩,
  ⟨-83680449562963555, 18⟩,
  ⟨31007801153486508, 17⟩,
  ⟨31007801153486508, 17⟩,
  ⟨-83680449562963555, 18⟩,
  ⟨32618531462663004, 18⟩,
  ⟨-11907675232141868, 18⟩,
  ⟨35914299596685019, 19⟩,
  ⟨-80979027642968178, 20⟩,
  ⟨11777177340253331, 20⟩,
  ⟨-78113862062895476, 22⟩
]

/-- pandaresampler.cc:773-787 `coeffs8_24[12]` (FIR) -/
def fir8x24 : List Dec := [
  ⟨-30345557546583312, 21⟩,
  ⟨57384655742621254, 20⟩,
  ⟨-43830674681261195, 19⟩,
  ⟨20226878808907018, 18⟩,
  ⟨-70915964811982507, 18⟩,
  ⟨30452864347609143, 17⟩,
  ⟨30452864347609143, 17⟩,
  ⟨-70915964811982507, 18⟩,
  ⟨20226878808907018, 18⟩,
  ⟨-43830674681261195, 19⟩,
  ⟨57384655742621254, 20⟩,
  ⟨-30345557546583312, 21⟩
]

/-- pandaresampler.cc:792-836 `coeffs2_20[42]` (FIR) -/
def fir2x20 : List Dec := [
  ⟨24629216796772203, 22⟩,
  ⟨-97990456966301657, 22⟩,
  ⟨28137964376908064, 21⟩,
  ⟨-67464881821884139, 21⟩,
  ⟨14336862073315604, 20⟩,
  ⟨-278702763263149, 18⟩,
  ⟨50528391212770792, 20⟩,
  ⟨-86555167177917124, 20⟩,
  ⟨1414202687011217, 18⟩,
  ⟨-22199926486379607, 19⟩,
  ⟨3368236285452741, 18⟩,
  ⟨-49651473206043309, 19⟩,
  ⟨71463283371987034, 19⟩,
  ⟨-10094148846828722, 18⟩,
  ⟨14074361299068285, 18⟩,
  ⟨-19516906264665349, 18⟩,
  ⟨272094990821482, 16⟩,
  ⟨-38828382182376338, 18⟩,
  ⟨58747406804456566, 18⟩,
  ⟨-10308466896169781, 17⟩,
  ⟨31729177522077334, 17⟩,
  ⟨31729177522077334, 17⟩,
  ⟨-10308466896169781, 17⟩,
  ⟨58747406804456566, 18⟩,
  ⟨-38828382182376338, 18⟩,
  ⟨272094990821482, 16⟩,
  ⟨-19516906264665349, 18⟩,
  ⟨14074361299068285, 18⟩,
  ⟨-10094148846828722, 18⟩,
  ⟨71463283371987034, 19⟩,
  ⟨-49651473206043309, 19⟩,
  ⟨3368236285452741, 18⟩,
  ⟨-22199926486379607, 19⟩,
  ⟨1414202687011217, 18⟩,
  ⟨-86555167177917124, 20⟩,
  ⟨50528391212770792, 20⟩,
  ⟨-278702763263149, 18⟩,
  ⟨14336862073315604, 20⟩,
  ⟨-67464881821884139, 21⟩,
  ⟨28137964376908064, 21⟩,
  ⟨-97990456966301657, 22⟩,
  ⟨24629216796772203, 22⟩
]

/-- pandaresampler.cc:841-857 `coeffs4_20[14]` (FIR) -/
def fir4x20 : List Dec := [
  ⟨43979674631863943, 21⟩,
  ⟨-50306469192140939, 20⟩,
  ⟨27962504087410051, 19⟩,
  ⟨-10470114594085408, 18⟩,
  ⟨30755143193163859, 18⟩,
  ⟨-82041866707154076, 18⟩,
  ⟨30941949170527272, 17⟩,
  ⟨30941949170527272, 17⟩,
  ⟨-82041866707154076, 18⟩,
  ⟨30755143193163859, 18⟩,
  ⟨-10470114594085408, 18⟩,
  ⟨27962504087410051, 19⟩,
  ⟨-50306469192140939, 20⟩,
  ⟨43979674631863943, 21⟩
]

/-- pandaresampler.cc:862-874 `coeffs8_20[10]` (FIR) -/
def fir8x20 : List Dec := [
  ⟨17230594713343064, 20⟩,
  ⟨-2551731819446271, 18⟩,
  ⟨15994679393099207, 18⟩,
  ⟨-6565066677090392, 17⟩,
  ⟨30203532650661641, 17⟩,
  ⟨30203532650661641, 17⟩,
  ⟨-6565066677090392, 17⟩,
  ⟨15994679393099207, 18⟩,
  ⟨-2551731819446271, 18⟩,
  ⟨17230594713343064, 20⟩
]

/-- pandaresampler.cc:879-913 `coeffs2_16[32]` (FIR) -/
def fir2x16 : List Dec := [
  ⟨-35142734993474452, 21⟩,
  ⟨11358789579768951, 20⟩,
  ⟨-28037958674221312, 20⟩,
  ⟨59293788160310029, 20⟩,
  ⟨-11294540908177168, 19⟩,
  ⟨19917372726928405, 19⟩,
  ⟨-33089217809884803, 19⟩,
  ⟨52441962508097874, 19⟩,
  ⟨-80093910223938553, 19⟩,
  ⟨11898075091115748, 18⟩,
  ⟨-17362581771322445, 18⟩,
  ⟨25204120984314127, 18⟩,
  ⟨-37100932061169559, 18⟩,
  ⟨57416112765805175, 18⟩,
  ⟨-10224463341225128, 17⟩,
  ⟨31700464719515836, 17⟩,
  ⟨31700464719515836, 17⟩,
  ⟨-10224463341225128, 17⟩,
  ⟨57416112765805175, 18⟩,
  ⟨-37100932061169559, 18⟩,
  ⟨25204120984314127, 18⟩,
  ⟨-17362581771322445, 18⟩,
  ⟨11898075091115748, 18⟩,
  ⟨-80093910223938553, 19⟩,
  ⟨52441962508097874, 19⟩,
  ⟨-33089217809884803, 19⟩,
  ⟨19917372726928405, 19⟩,
  ⟨-11294540908177168, 19⟩,
  ⟨59293788160310029, 20⟩,
  ⟨-28037958674221312, 20⟩,
  ⟨11358789579768951, 20⟩,
  ⟨-35142734993474452, 21⟩
]

/-- pandaresampler.cc:918-930 `coeffs4_16[10]` (FIR) -/
def fir4x16 : List Dec := [
  ⟨55713256761683592, 20⟩,
  ⟨-48543666906354314, 19⟩,
  ⟨21809335002826412, 18⟩,
  ⟨-73141515220609826, 18⟩,
  ⟨30562814686107148, 17⟩,
  ⟨30562814686107148, 17⟩,
  ⟨-73141515220609826, 18⟩,
  ⟨21809335002826412, 18⟩,
  ⟨-48543666906354314, 19⟩,
  ⟨55713256761683592, 20⟩
]

/-- pandaresampler.cc:935-945 `coeffs8_16[8]` (FIR) -/
def fir8x16 : List Dec := [
  ⟨-10885239331601664, 19⟩,
  ⟨11649378449320126, 18⟩,
  ⟨-59557473859641011, 18⟩,
  ⟨29900137394294291, 17⟩,
  ⟨29900137394294291, 17⟩,
  ⟨-59557473859641011, 18⟩,
  ⟨11649378449320126, 18⟩,
  ⟨-10885239331601664, 19⟩
]

/-- pandaresampler.cc:950-976 `coeffs2_12[24]` (FIR) -/
def fir2x12 : List Dec := [
  ⟨-31919473602139891, 20⟩,
  ⟨83854004488146685, 20⟩,
  ⟨-17905303270299995, 19⟩,
  ⟨33731130894814397, 19⟩,
  ⟨-58408892523820347, 19⟩,
  ⟨95314079754320758, 19⟩,
  ⟨-14935625615431904, 18⟩,
  ⟨22881655727240446, 18⟩,
  ⟨-35057791064865292, 18⟩,
  ⟨55817399757994692, 18⟩,
  ⟨-10122584733772397, 17⟩,
  ⟨31665472430452679, 17⟩,
  ⟨31665472430452679, 17⟩,
  ⟨-10122584733772397, 17⟩,
  ⟨55817399757994692, 18⟩,
  ⟨-35057791064865292, 18⟩,
  ⟨22881655727240446, 18⟩,
  ⟨-14935625615431904, 18⟩,
  ⟨95314079754320758, 19⟩,
  ⟨-58408892523820347, 19⟩,
  ⟨33731130894814397, 19⟩,
  ⟨-17905303270299995, 19⟩,
  ⟨83854004488146685, 20⟩,
  ⟨-31919473602139891, 20⟩
]

/-- pandaresampler.cc:981-991 `coeffs4_12[8]` (FIR) -/
def fir4x12 : List Dec := [
  ⟨-25910542040449157, 19⟩,
  ⟨17312836258421893, 18⟩,
  ⟨-68161446853832547, 18⟩,
  ⟨30340841235941457, 17⟩,
  ⟨30340841235941457, 17⟩,
  ⟨-68161446853832547, 18⟩,
  ⟨17312836258421893, 18⟩,
  ⟨-25910542040449157, 19⟩
]

/-- pandaresampler.cc:996-1004 `coeffs8_12[6]` (FIR) -/
def fir8x12 : List Dec := [
  ⟨5872148420194066, 18⟩,
  ⟨-49275035331134497, 18⟩,
  ⟨29336813890765762, 17⟩,
  ⟨29336813890765762, 17⟩,
  ⟨-49275035331134497, 18⟩,
  ⟨5872148420194066, 18⟩
]

/-- pandaresampler.cc:1009-1027 `coeffs2_8[16]` (FIR) -/
def fir2x8 : List Dec := [
  ⟨-26367453410967019, 19⟩,
  ⟨56954995988467462, 19⟩,
  ⟨-10750637983096105, 18⟩,
  ⟨18689598049002096, 18⟩,
  ⟨-31243628674597745, 18⟩,
  ⟨52760932803671098, 18⟩,
  ⟨-99248122111822379, 18⟩,
  ⟨31597034387100925, 17⟩,
  ⟨31597034387100925, 17⟩,
  ⟨-99248122111822379, 18⟩,
  ⟨52760932803671098, 18⟩,
  ⟨-31243628674597745, 18⟩,
  ⟨18689598049002096, 18⟩,
  ⟨-10750637983096105, 18⟩,
  ⟨56954995988467462, 19⟩,
  ⟨-26367453410967019, 19⟩
]

/-- pandaresampler.cc:1032-1040 `coeffs4_8[6]` (FIR) -/
def fir4x8 : List Dec := [
  ⟨13331613494158878, 18⟩,
  ⟨-63984766541747701, 18⟩,
  ⟨30161384865948221, 17⟩,
  ⟨30161384865948221, 17⟩,
  ⟨-63984766541747701, 18⟩,
  ⟨13331613494158878, 18⟩
]

/-- pandaresampler.cc:1045-1051 `coeffs8_8[4]` (FIR) -/
def fir8x8 : List Dec := [
  ⟨-37276258261764332, 18⟩,
  ⟨28635090020526976, 17⟩,
  ⟨28635090020526976, 17⟩,
  ⟨-37276258261764332, 18⟩
]

/-- pandaresampler.cc:1061-1065 `coeffs_linear[2]` (FIR) -/
def firLinear : List Dec := [
  ⟨25, 2⟩,
  ⟨25, 2⟩
]

/-- pandaresampler.cc:1232-1236 `coeffs2_8[3]` (IIR) -/
def iir2x8 : List Dec := [
  ⟨13533476491166646, 17⟩,
  ⟨44459059808236606, 17⟩,
  ⟨80006724816152464, 17⟩
]

/-- pandaresampler.cc:1240-1243 `coeffs4_8[2]` (IIR) -/
def iir4x8 : List Dec := [
  ⟨12564829488677751, 17⟩,
  ⟨56413565549879052, 17⟩
]

/-- pandaresampler.cc:1247-1249 `coeffs8_8[1]` (IIR) -/
def iir8x8 : List Dec := [
  ⟨34210403268814876, 17⟩
]

/-- pandaresampler.cc:1253-1259 `coeffs2_12[5]` (IIR) -/
def iir2x12 : List Dec := [
  ⟨57369561854075074, 18⟩,
  ⟨2095436081316879, 16⟩,
  ⟨41352768544651608, 17⟩,
  ⟨6351349011042412, 16⟩,
  ⟨86943780167618079, 17⟩
]

/-- pandaresampler.cc:1263-1267 `coeffs4_12[3]` (IIR) -/
def iir4x12 : List Dec := [
  ⟨63242386110162196, 18⟩,
  ⟨26520245698601469, 17⟩,
  ⟨66713594063634607, 17⟩
]

/-- pandaresampler.cc:1271-1274 `coeffs8_12[2]` (IIR) -/
def iir8x12 : List Dec := [
  ⟨11010398332301433, 17⟩,
  ⟨53640535169046299, 17⟩
]

/-- pandaresampler.cc:1278-1285 `coeffs2_16[6]` (IIR) -/
def iir2x16 : List Dec := [
  ⟨41451595119442179, 18⟩,
  ⟨15510356876083609, 17⟩,
  ⟨31565680487417447, 17⟩,
  ⟨49770230748789734, 17⟩,
  ⟨68754139898746236, 17⟩,
  ⟨88864894857989574, 17⟩
]

/-- pandaresampler.cc:1289-1293 `coeffs4_16[3]` (IIR) -/
def iir4x16 : List Dec := [
  ⟨63242386110162196, 18⟩,
  ⟨26520245698601469, 17⟩,
  ⟨66713594063634607, 17⟩
]

/-- pandaresampler.cc:1297-1300 `coeffs8_16[2]` (IIR) -/
def iir8x16 : List Dec := [
  ⟨11010398332301433, 17⟩,
  ⟨53640535169046299, 17⟩
]

/-- pandaresampler.cc:1304-1313 `coeffs2_20[8]` (IIR) -/
def iir2x20 : List Dec := [
  ⟨24474822059978408, 18⟩,
  ⟨94054346501929856, 18⟩,
  ⟨19872162695194262, 17⟩,
  ⟨32597599445882591, 17⟩,
  ⟨46482603848881743, 17⟩,
  ⟨60862663328164524, 17⟩,
  ⟨75647898374965283, 17⟩,
  ⟨91392075106875681, 17⟩
]

/-- pandaresampler.cc:1317-1322 `coeffs4_20[4]` (IIR) -/
def iir4x20 : List Dec := [
  ⟨3806054747623356, 17⟩,
  ⟨15621232623983866, 17⟩,
  ⟨37118048037198415, 17⟩,
  ⟨73087698794653666, 17⟩
]

/-- pandaresampler.cc:1326-1330 `coeffs8_20[3]` (IIR) -/
def iir8x20 : List Dec := [
  ⟨54591151801747943, 18⟩,
  ⟨23954799102035762, 17⟩,
  ⟨64335720472138391, 17⟩
]

/-- pandaresampler.cc:1334-1344 `coeffs2_24[9]` (IIR) -/
def iir2x24 : List Dec := [
  ⟨1964694276744065, 17⟩,
  ⟨76088803821783499, 18⟩,
  ⟨16263241326637887, 17⟩,
  ⟨2704225137521028, 16⟩,
  ⟨39083229614395837, 17⟩,
  ⟨51740920918216626, 17⟩,
  ⟨6470358330763375, 16⟩,
  ⟨7804624622392915, 16⟩,
  ⟨92268241849452293, 17⟩
]

/-- pandaresampler.cc:1348-1354 `coeffs4_24[5]` (IIR) -/
def iir4x24 : List Dec := [
  ⟨25414320818611134, 18⟩,
  ⟨10332655701804375, 17⟩,
  ⟨24011358015046655, 17⟩,
  ⟨45161232259950512, 17⟩,
  ⟨77416388521132473, 17⟩
]

/-- pandaresampler.cc:1358-1362 `coeffs8_24[3]` (IIR) -/
def iir8x24 : List Dec := [
  ⟨54591151801747943, 18⟩,
  ⟨23954799102035762, 17⟩,
  ⟨64335720472138391, 17⟩
]

/-- pandaresampler.cc:1238 group delay passed for `coeffs2_8` -/
def gd2x8 : Dec := ⟨1749694, 6⟩

/-- pandaresampler.cc:1245 group delay passed for `coeffs4_8` -/
def gd4x8 : Dec := ⟨155429, 5⟩

/-- pandaresampler.cc:1251 group delay passed for `coeffs8_8` -/
def gd8x8 : Dec := ⟨980631, 6⟩

/-- pandaresampler.cc:1261 group delay passed for `coeffs2_12` -/
def gd2x12 : Dec := ⟨2758511, 6⟩

/-- pandaresampler.cc:1269 group delay passed for `coeffs4_12` -/
def gd4x12 : Dec := ⟨2162389, 6⟩

/-- pandaresampler.cc:1276 group delay passed for `coeffs8_12` -/
def gd8x12 : Dec := ⟨1603448, 6⟩

/-- pandaresampler.cc:1287 group delay passed for `coeffs2_16` -/
def gd2x16 : Dec := ⟨3258518, 6⟩

/-- pandaresampler.cc:1295 group delay passed for `coeffs4_16` -/
def gd4x16 : Dec := ⟨2162389, 6⟩

/-- pandaresampler.cc:1302 group delay passed for `coeffs8_16` -/
def gd8x16 : Dec := ⟨1603448, 6⟩

/-- pandaresampler.cc:1315 group delay passed for `coeffs2_20` -/
def gd2x20 : Dec := ⟨4258575, 6⟩

/-- pandaresampler.cc:1324 group delay passed for `coeffs4_20` -/
def gd4x20 : Dec := ⟨2771786, 6⟩

/-- pandaresampler.cc:1332 group delay passed for `coeffs8_20` -/
def gd8x20 : Dec := ⟨2227224, 6⟩

/-- pandaresampler.cc:1346 group delay passed for `coeffs2_24` -/
def gd2x24 : Dec := ⟨4758752, 6⟩

/-- pandaresampler.cc:1356 group delay passed for `coeffs4_24` -/
def gd4x24 : Dec := ⟨3382479, 6⟩

/-- pandaresampler.cc:1364 group delay passed for `coeffs8_24` -/
def gd8x24 : Dec := ⟨2227224, 6⟩

/-- One `create_impl_with_coeffs <Upsampler2<ORDER, USE_SSE> > (coeffs, n, scaling)` in `create_impl`
(pandaresampler.cc:746-1070): the stage ratio tested for (0: none, any stage), the precision tested for, whether it is
the upsampler, the template argument `ORDER`, the table, the argument `n` and the (integral) scaling. -/
structure FirCreate where
  stage : Nat
  precision : Nat
  up : Bool
  order : Nat
  table : List Dec
  n : Nat
  scaling : Nat

/-- pandaresampler.cc:746-1070: all of them, in order. -/
def firCreate : List FirCreate := [
  ⟨2, 24, true, 52, fir2x24, 52, 2⟩,
  ⟨2, 24, false, 52, fir2x24, 52, 1⟩,
  ⟨4, 24, true, 16, fir4x24, 16, 2⟩,
  ⟨4, 24, false, 16, fir4x24, 16, 1⟩,
  ⟨8, 24, true, 12, fir8x24, 12, 2⟩,
  ⟨8, 24, false, 12, fir8x24, 12, 1⟩,
  ⟨2, 20, true, 42, fir2x20, 42, 2⟩,
  ⟨2, 20, false, 42, fir2x20, 42, 1⟩,
  ⟨4, 20, true, 14, fir4x20, 14, 2⟩,
  ⟨4, 20, false, 14, fir4x20, 14, 1⟩,
  ⟨8, 20, true, 10, fir8x20, 10, 2⟩,
  ⟨8, 20, false, 10, fir8x20, 10, 1⟩,
  ⟨2, 16, true, 32, fir2x16, 32, 2⟩,
  ⟨2, 16, false, 32, fir2x16, 32, 1⟩,
  ⟨4, 16, true, 10, fir4x16, 10, 2⟩,
  ⟨4, 16, false, 10, fir4x16, 10, 1⟩,
  ⟨8, 16, true, 8, fir8x16, 8, 2⟩,
  ⟨8, 16, false, 8, fir8x16, 8, 1⟩,
  ⟨2, 12, true, 24, fir2x12, 24, 2⟩,
  ⟨2, 12, false, 24, fir2x12, 24, 1⟩,
  ⟨4, 12, true, 8, fir4x12, 8, 2⟩,
  ⟨4, 12, false, 8, fir4x12, 8, 1⟩,
  ⟨8, 12, true, 6, fir8x12, 6, 2⟩,
  ⟨8, 12, false, 6, fir8x12, 6, 1⟩,
  ⟨2, 8, true, 16, fir2x8, 16, 2⟩,
  ⟨2, 8, false, 16, fir2x8, 16, 1⟩,
  ⟨4, 8, true, 6, fir4x8, 6, 2⟩,
  ⟨4, 8, false, 6, fir4x8, 6, 1⟩,
  ⟨8, 8, true, 4, fir8x8, 4, 2⟩,
  ⟨8, 8, false, 4, fir8x8, 4, 1⟩,
  ⟨0, 1, true, 2, firLinear, 2, 2⟩,
  ⟨0, 1, false, 2, firLinear, 2, 1⟩
]

end Panda

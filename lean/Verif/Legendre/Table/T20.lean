import Verif.Legendre.Check

/-! Generated by tools/leggen.py from source/ass_leg_function.cc: the functions `P_20_m` and `P_20_m_Deriv`. -/

namespace PiBem.Legendre.Table

open Ex

/-- `P_20_0` (ass_leg_function.cc:12896-12928). -/
def P_20_0 : Prog :=
⟨[(1, (mul x x)), (2, (mul (t 1) (t 1))), (3, (mul (t 2) (t 2))), (4, (mul (t 3) (t 3))), (6, (sub (t 1) (num 1))),
    (10, (mul (t 6) (t 6))), (13, (mul (t 10) (t 6))), (14, (mul (t 2) (t 1))), (18, (mul (t 10) (t 10))), (32, (mul
    (t 18) (t 18)))], (add (add (add (add (add (add (add (add (add (add (mul (t 4) (t 2)) (mul (mul (mul (num 95) (t
    6)) (t 4)) (t 1))) (mul (mul (div (num 14535) (num 8)) (t 10)) (t 4))) (mul (mul (mul (div (num 24225) (num 2)) (t
    13)) (t 3)) (t 14))) (mul (mul (mul (div (num 2204475) (num 64)) (t 18)) (t 3)) (t 2))) (mul (mul (mul (mul (div
    (num 2909907) (num 64)) (t 18)) (t 6)) (t 3)) (t 1))) (mul (mul (mul (div (num 14549535) (num 512)) (t 18)) (t
    10)) (t 3))) (mul (mul (mul (div (num 2078505) (num 256)) (t 18)) (t 13)) (t 14))) (mul (mul (div (num 31177575)
    (num 32768)) (t 32)) (t 2))) (mul (mul (mul (div (num 1154725) (num 32768)) (t 32)) (t 6)) (t 1))) (mul (mul (div
    (num 46189) (num 262144)) (t 32)) (t 10)))⟩

/-- `P_20_0_Deriv` (ass_leg_function.cc:12930-12965). -/
def P_20_0_Deriv : Prog :=
⟨[(1, (mul x x)), (2, (mul (t 1) x)), (3, (mul (t 1) (t 1))), (4, (mul (t 3) (t 3))), (5, (mul (t 4) (t 4))), (8, (sub
    (t 1) (num 1))), (12, (mul (t 8) (t 8))), (13, (mul (t 3) (t 2))), (17, (mul (t 12) (t 8))), (18, (mul (t 3) x)),
    (22, (mul (t 12) (t 12))), (36, (mul (t 22) (t 22)))], (add (add (add (add (add (add (add (add (add (mul (mul (num
    210) (t 5)) (t 2)) (mul (mul (mul (div (num 17955) (num 2)) (t 8)) (t 5)) x)) (mul (mul (mul (num 101745) (t 12))
    (t 4)) (t 13))) (mul (mul (mul (div (num 3561075) (num 8)) (t 17)) (t 4)) (t 18))) (mul (mul (mul (div (num
    27776385) (num 32)) (t 22)) (t 4)) (t 2))) (mul (mul (mul (mul (div (num 101846745) (num 128)) (t 22)) (t 8)) (t
    4)) x)) (mul (mul (mul (div (num 43648605) (num 128)) (t 22)) (t 12)) (t 13))) (mul (mul (mul (div (num 130945815)
    (num 2048)) (t 22)) (t 17)) (t 18))) (mul (mul (div (num 72747675) (num 16384)) (t 36)) (t 2))) (mul (mul (mul
    (div (num 4849845) (num 65536)) (t 36)) (t 8)) x))⟩

/-- `P_20_1` (ass_leg_function.cc:12969-13014). -/
def P_20_1 : Prog :=
⟨[(1, (sqrt (num 105))), (2, (mul x x)), (3, (sub (num 1) (t 2))), (4, (sqrt (t 3))), (6, (mul (t 2) x)), (7, (mul (t
    2) (t 2))), (8, (mul (t 7) (t 7))), (9, (mul (t 8) (t 8))), (12, (neg (t 3))), (16, (mul (t 12) (t 12))), (17,
    (mul (t 7) (t 6))), (21, (mul (t 16) (t 12))), (22, (mul (t 7) x)), (26, (mul (t 16) (t 16))), (40, (mul (t 26) (t
    26)))], (div (mul (mul (neg (t 1)) (t 4)) (add (add (add (add (add (add (add (add (add (mul (mul (num
    535727357786423977574400000) (t 9)) (t 6)) (mul (mul (mul (num 22902344545369625041305600000) (t 12)) (t 9)) x))
    (mul (mul (mul (num 259559904847522417134796800000) (t 16)) (t 8)) (t 17))) (mul (mul (mul (num
    1135574583707910574964736000000) (t 21)) (t 8)) (t 22))) (mul (mul (mul (num 2214370438230425621181235200000) (t
    26)) (t 8)) (t 6))) (mul (mul (mul (mul (num 2029839568377890152749465600000) (t 26)) (t 12)) (t 8)) x)) (mul (mul
    (mul (num 869931243590524351178342400000) (t 26)) (t 16)) (t 17))) (mul (mul (mul (num
    163112108173223315845939200000) (t 26)) (t 21)) (t 22))) (mul (mul (num 11327229734251619155968000000) (t 40)) (t
    6))) (mul (mul (mul (num 188787162237526985932800000) (t 40)) (t 12)) x))) (num 535727357786423977574400000))⟩

/-- `P_20_1_Deriv` (ass_leg_function.cc:13018-13085). -/
def P_20_1_Deriv : Prog :=
⟨[(1, (sqrt (num 105))), (2, (mul x x)), (3, (sub (num 1) (t 2))), (4, (sqrt (t 3))), (7, (mul (t 2) x)), (8, (mul (t
    2) (t 2))), (9, (mul (t 8) (t 8))), (10, (mul (t 9) (t 9))), (13, (neg (t 3))), (17, (mul (t 13) (t 13))), (18,
    (mul (t 8) (t 7))), (22, (mul (t 17) (t 13))), (23, (mul (t 8) x)), (27, (mul (t 17) (t 17))), (31, (mul (t 27) (t
    13))), (35, (mul (t 27) (t 17))), (38, (mul (t 27) (t 22))), (41, (mul (t 27) (t 27))), (44, (mul (t 41) (t 13))),
    (55, (mul (t 8) (t 2)))], (sub (div (mul (mul (div (t 1) (t 4)) (add (add (add (add (add (add (add (add (add (mul
    (mul (num 535727357786423977574400000) (t 10)) (t 7)) (mul (mul (mul (num 22902344545369625041305600000) (t 13))
    (t 10)) x)) (mul (mul (mul (num 259559904847522417134796800000) (t 17)) (t 9)) (t 18))) (mul (mul (mul (num
    1135574583707910574964736000000) (t 22)) (t 9)) (t 23))) (mul (mul (mul (num 2214370438230425621181235200000) (t
    27)) (t 9)) (t 7))) (mul (mul (mul (num 2029839568377890152749465600000) (t 31)) (t 9)) x)) (mul (mul (num
    869931243590524351178342400000) (t 35)) (t 18))) (mul (mul (num 163112108173223315845939200000) (t 38)) (t 23)))
    (mul (mul (num 11327229734251619155968000000) (t 41)) (t 7))) (mul (mul (num 188787162237526985932800000) (t 44))
    x))) x) (num 535727357786423977574400000)) (div (mul (mul (t 1) (t 4)) (add (add (add (add (add (add (add (add
    (add (mul (mul (num 55983508888681305656524800000) (t 2)) (t 10)) (mul (mul (num 1427579476661373294241382400000)
    (t 13)) (t 10))) (mul (mul (mul (num 10706846074960299706810368000000) (t 17)) (t 9)) (t 55))) (mul (mul (mul (num
    32477433094046242443991449600000) (t 22)) (t 9)) (t 8))) (mul (mul (mul (num 44656470504313583360488243200000) (t
    27)) (t 9)) (t 2))) (mul (mul (num 28707731038487303588885299200000) (t 31)) (t 9))) (mul (mul (num
    8373088219558796880091545600000) (t 35)) (t 55))) (mul (mul (num 996796216614142485725184000000) (t 38)) (t 8)))
    (mul (mul (num 37379858123030343214694400000) (t 41)) (t 2))) (mul (num 188787162237526985932800000) (t 44))))
    (num 535727357786423977574400000)))⟩

/-- `P_20_2` (ass_leg_function.cc:13089-13128). -/
def P_20_2 : Prog :=
⟨[(1, (sqrt (num 43890))), (2, (mul x x)), (3, (sub (num 1) (t 2))), (5, (mul (t 2) (t 2))), (6, (mul (t 5) (t 5))),
    (7, (mul (t 6) (t 6))), (10, (neg (t 3))), (13, (mul (t 10) (t 10))), (14, (mul (t 5) (t 2))), (18, (mul (t 13) (t
    10))), (22, (mul (t 13) (t 13))), (35, (mul (t 22) (t 22)))], (div (mul (mul (t 1) (t 3)) (add (add (add (add (add
    (add (add (add (add (mul (mul (num 55983508888681305656524800000) (t 7)) (t 2)) (mul (mul (num
    1427579476661373294241382400000) (t 10)) (t 7))) (mul (mul (mul (num 10706846074960299706810368000000) (t 13)) (t
    6)) (t 14))) (mul (mul (mul (num 32477433094046242443991449600000) (t 18)) (t 6)) (t 5))) (mul (mul (mul (num
    44656470504313583360488243200000) (t 22)) (t 6)) (t 2))) (mul (mul (mul (num 28707731038487303588885299200000) (t
    22)) (t 10)) (t 6))) (mul (mul (mul (num 8373088219558796880091545600000) (t 22)) (t 13)) (t 14))) (mul (mul (mul
    (num 996796216614142485725184000000) (t 22)) (t 18)) (t 5))) (mul (mul (num 37379858123030343214694400000) (t 35))
    (t 2))) (mul (mul (num 188787162237526985932800000) (t 35)) (t 10)))) (num 223934035554725222626099200000))⟩

/-- `P_20_2_Deriv` (ass_leg_function.cc:13132-13192). -/
def P_20_2_Deriv : Prog :=
⟨[(1, (sqrt (num 43890))), (3, (mul x x)), (4, (mul (t 3) (t 3))), (5, (mul (t 4) (t 4))), (6, (mul (t 5) (t 5))), (9,
    (sub (t 3) (num 1))), (12, (mul (t 9) (t 9))), (13, (mul (t 4) (t 3))), (17, (mul (t 12) (t 9))), (21, (mul (t 12)
    (t 12))), (25, (mul (t 21) (t 9))), (28, (mul (t 21) (t 12))), (31, (mul (t 21) (t 17))), (34, (mul (t 21) (t
    21))), (46, (mul (t 3) x)), (47, (mul (t 4) (t 46))), (51, (mul (t 4) x))], (sub (div (mul (mul (neg (t 1)) x)
    (add (add (add (add (add (add (add (add (add (mul (mul (num 55983508888681305656524800000) (t 6)) (t 3)) (mul (mul
    (num 1427579476661373294241382400000) (t 9)) (t 6))) (mul (mul (mul (num 10706846074960299706810368000000) (t 12))
    (t 5)) (t 13))) (mul (mul (mul (num 32477433094046242443991449600000) (t 17)) (t 5)) (t 4))) (mul (mul (mul (num
    44656470504313583360488243200000) (t 21)) (t 5)) (t 3))) (mul (mul (num 28707731038487303588885299200000) (t 25))
    (t 5))) (mul (mul (num 8373088219558796880091545600000) (t 28)) (t 13))) (mul (mul (num
    996796216614142485725184000000) (t 31)) (t 4))) (mul (mul (num 37379858123030343214694400000) (t 34)) (t 3))) (mul
    (mul (num 188787162237526985932800000) (t 34)) (t 9)))) (num 111967017777362611313049600000)) (div (mul (mul (t 1)
    (t 9)) (add (add (add (add (add (add (add (add (mul (mul (num 3862862113319010090300211200000) (t 6)) x) (mul (mul
    (mul (num 65668655926423171535103590400000) (t 9)) (t 5)) (t 47))) (mul (mul (mul (num
    344760443613721650559293849600000) (t 12)) (t 5)) (t 51))) (mul (mul (mul (num 746980961163063576211803340800000)
    (t 17)) (t 5)) (t 46))) (mul (mul (mul (num 733642015428008869493735424000000) (t 21)) (t 5)) x)) (mul (mul (num
    330138906942603991272180940800000) (t 25)) (t 47))) (mul (mul (num 64193676349950776080701849600000) (t 28)) (t
    51))) (mul (mul (num 4585262596425055434335846400000) (t 31)) (t 46))) (mul (mul (num
    78157885166336172176179200000) (t 34)) x))) (num 223934035554725222626099200000)))⟩

/-- `P_20_3` (ass_leg_function.cc:13196-13240). -/
def P_20_3 : Prog :=
⟨[(1, (sqrt (num 504735))), (2, (mul x x)), (3, (sub (num 1) (t 2))), (4, (sqrt (t 3))), (7, (mul (t 2) (t 2))), (8,
    (mul (t 7) (t 7))), (9, (mul (t 8) (t 8))), (12, (neg (t 3))), (13, (mul (t 2) x)), (14, (mul (t 7) (t 13))), (18,
    (mul (t 12) (t 12))), (19, (mul (t 7) x)), (23, (mul (t 18) (t 12))), (27, (mul (t 18) (t 18))), (40, (mul (t 27)
    (t 27)))], (div (mul (mul (mul (neg (t 1)) (t 4)) (t 3)) (add (add (add (add (add (add (add (add (mul (mul (num
    3862862113319010090300211200000) (t 9)) x) (mul (mul (mul (num 65668655926423171535103590400000) (t 12)) (t 8)) (t
    14))) (mul (mul (mul (num 344760443613721650559293849600000) (t 18)) (t 8)) (t 19))) (mul (mul (mul (num
    746980961163063576211803340800000) (t 23)) (t 8)) (t 13))) (mul (mul (mul (num 733642015428008869493735424000000)
    (t 27)) (t 8)) x)) (mul (mul (mul (num 330138906942603991272180940800000) (t 27)) (t 12)) (t 14))) (mul (mul (mul
    (num 64193676349950776080701849600000) (t 27)) (t 18)) (t 19))) (mul (mul (mul (num
    4585262596425055434335846400000) (t 27)) (t 23)) (t 13))) (mul (mul (num 78157885166336172176179200000) (t 40))
    x))) (num 15451448453276040361200844800000))⟩

/-- `P_20_3_Deriv` (ass_leg_function.cc:13244-13307). -/
def P_20_3_Deriv : Prog :=
⟨[(1, (sqrt (num 504735))), (2, (mul x x)), (3, (sub (num 1) (t 2))), (4, (sqrt (t 3))), (6, (mul (t 2) (t 2))), (7,
    (mul (t 6) (t 6))), (8, (mul (t 7) (t 7))), (11, (neg (t 3))), (12, (mul (t 2) x)), (13, (mul (t 6) (t 12))), (17,
    (mul (t 11) (t 11))), (18, (mul (t 6) x)), (22, (mul (t 17) (t 11))), (26, (mul (t 17) (t 17))), (30, (mul (t 26)
    (t 11))), (33, (mul (t 26) (t 17))), (36, (mul (t 26) (t 22))), (39, (mul (t 26) (t 26))), (49, (mul (t 6) (t
    2)))], (sub (div (mul (mul (mul (t 1) (t 4)) (add (add (add (add (add (add (add (add (mul (mul (num
    3862862113319010090300211200000) (t 8)) x) (mul (mul (mul (num 65668655926423171535103590400000) (t 11)) (t 7)) (t
    13))) (mul (mul (mul (num 344760443613721650559293849600000) (t 17)) (t 7)) (t 18))) (mul (mul (mul (num
    746980961163063576211803340800000) (t 22)) (t 12)) (t 7))) (mul (mul (mul (num 733642015428008869493735424000000)
    (t 26)) (t 7)) x)) (mul (mul (num 330138906942603991272180940800000) (t 30)) (t 13))) (mul (mul (num
    64193676349950776080701849600000) (t 33)) (t 18))) (mul (mul (num 4585262596425055434335846400000) (t 36)) (t
    12))) (mul (mul (num 78157885166336172176179200000) (t 39)) x))) x) (num 5150482817758680120400281600000)) (div
    (mul (mul (mul (t 1) (t 4)) (t 3)) (add (add (add (add (add (add (add (add (mul (num
    197005967779269514605310771200000) (t 8)) (mul (mul (mul (num 2364071613351234175263729254400000) (t 11)) (t 7))
    (t 49))) (mul (mul (mul (num 8963771533956762914541640089600000) (t 17)) (t 7)) (t 6))) (mul (mul (mul (num
    14085926696217770294279720140800000) (t 22)) (t 7)) (t 2))) (mul (mul (num 9904167208278119738165428224000000) (t
    26)) (t 7))) (mul (mul (num 3081296464797637251873688780800000) (t 30)) (t 49))) (mul (mul (num
    385162058099704656484211097600000) (t 33)) (t 6))) (mul (mul (num 15006313951936545057826406400000) (t 36)) (t
    2))) (mul (num 78157885166336172176179200000) (t 39)))) (num 15451448453276040361200844800000)))⟩

/-- `P_20_4` (ass_leg_function.cc:13311-13351). -/
def P_20_4 : Prog :=
⟨[(1, (sqrt (num 5720330))), (2, (mul x x)), (3, (sub (num 1) (t 2))), (4, (mul (t 3) (t 3))), (6, (mul (t 2) (t 2))),
    (7, (mul (t 6) (t 6))), (8, (mul (t 7) (t 7))), (10, (neg (t 3))), (11, (mul (t 6) (t 2))), (15, (mul (t 10) (t
    10))), (19, (mul (t 15) (t 10))), (23, (mul (t 15) (t 15))), (35, (mul (t 23) (t 23)))], (div (mul (mul (t 1) (t
    4)) (add (add (add (add (add (add (add (add (mul (num 197005967779269514605310771200000) (t 8)) (mul (mul (mul
    (num 2364071613351234175263729254400000) (t 10)) (t 7)) (t 11))) (mul (mul (mul (num
    8963771533956762914541640089600000) (t 15)) (t 7)) (t 6))) (mul (mul (mul (num
    14085926696217770294279720140800000) (t 19)) (t 7)) (t 2))) (mul (mul (num 9904167208278119738165428224000000) (t
    23)) (t 7))) (mul (mul (mul (num 3081296464797637251873688780800000) (t 23)) (t 10)) (t 11))) (mul (mul (mul (num
    385162058099704656484211097600000) (t 23)) (t 15)) (t 6))) (mul (mul (mul (num 15006313951936545057826406400000)
    (t 23)) (t 19)) (t 2))) (mul (num 78157885166336172176179200000) (t 35)))) (num
    1050698494822770744561657446400000))⟩

/-- `P_20_4_Deriv` (ass_leg_function.cc:13355-13417). -/
def P_20_4_Deriv : Prog :=
⟨[(1, (sqrt (num 5720330))), (2, (mul x x)), (3, (sub (num 1) (t 2))), (5, (mul (t 2) (t 2))), (6, (mul (t 5) (t 5))),
    (7, (mul (t 6) (t 6))), (9, (neg (t 3))), (10, (mul (t 5) (t 2))), (14, (mul (t 9) (t 9))), (18, (mul (t 14) (t
    9))), (22, (mul (t 14) (t 14))), (25, (mul (t 22) (t 9))), (28, (mul (t 22) (t 14))), (31, (mul (t 22) (t 18))),
    (34, (mul (t 22) (t 22))), (40, (mul (t 3) (t 3))), (42, (mul (t 2) x)), (43, (mul (t 5) (t 42))), (46, (mul (t 5)
    x))], (add (div (mul (mul (mul (neg (t 1)) (t 3)) (add (add (add (add (add (add (add (add (mul (num
    197005967779269514605310771200000) (t 7)) (mul (mul (mul (num 2364071613351234175263729254400000) (t 9)) (t 6)) (t
    10))) (mul (mul (mul (num 8963771533956762914541640089600000) (t 14)) (t 6)) (t 5))) (mul (mul (mul (num
    14085926696217770294279720140800000) (t 18)) (t 6)) (t 2))) (mul (mul (num 9904167208278119738165428224000000) (t
    22)) (t 6))) (mul (mul (num 3081296464797637251873688780800000) (t 25)) (t 10))) (mul (mul (num
    385162058099704656484211097600000) (t 28)) (t 5))) (mul (mul (num 15006313951936545057826406400000) (t 31)) (t
    2))) (mul (num 78157885166336172176179200000) (t 34)))) x) (num 262674623705692686140414361600000)) (div (mul (mul
    (t 1) (t 40)) (add (add (add (add (add (add (add (mul (mul (num 7880238711170780584212430848000000) (t 6)) (t 43))
    (mul (mul (mul (num 68952088722744330111858769920000000) (t 9)) (t 6)) (t 46))) (mul (mul (mul (num
    192080818584787776740178001920000000) (t 14)) (t 6)) (t 42))) (mul (mul (mul (num
    220092604628402660848120627200000000) (t 18)) (t 6)) x)) (mul (mul (num 110046302314201330424060313600000000) (t
    22)) (t 43))) (mul (mul (num 23109723485982279389052665856000000) (t 25)) (t 46))) (mul (mul (num
    1750736627725930256746414080000000) (t 28)) (t 42))) (mul (mul (num 31263154066534468870471680000000) (t 31)) x)))
    (num 1050698494822770744561657446400000)))⟩

/-- `P_20_5` (ass_leg_function.cc:13421-13462). -/
def P_20_5 : Prog :=
⟨[(1, (sqrt (num 5720330))), (2, (mul x x)), (3, (sub (num 1) (t 2))), (4, (mul (t 3) (t 3))), (5, (sqrt (t 3))), (8,
    (mul (t 2) x)), (9, (mul (t 2) (t 2))), (10, (mul (t 9) (t 8))), (11, (mul (t 9) (t 9))), (14, (neg (t 3))), (15,
    (mul (t 9) x)), (19, (mul (t 14) (t 14))), (23, (mul (t 19) (t 14))), (27, (mul (t 19) (t 19)))], (div (mul (mul
    (mul (neg (t 1)) (t 5)) (t 4)) (add (add (add (add (add (add (add (mul (mul (num
    7880238711170780584212430848000000) (t 11)) (t 10)) (mul (mul (mul (num 68952088722744330111858769920000000) (t
    14)) (t 11)) (t 15))) (mul (mul (mul (num 192080818584787776740178001920000000) (t 19)) (t 11)) (t 8))) (mul (mul
    (mul (num 220092604628402660848120627200000000) (t 23)) (t 11)) x)) (mul (mul (num
    110046302314201330424060313600000000) (t 27)) (t 10))) (mul (mul (mul (num 23109723485982279389052665856000000) (t
    27)) (t 14)) (t 15))) (mul (mul (mul (num 1750736627725930256746414080000000) (t 27)) (t 19)) (t 8))) (mul (mul
    (mul (num 31263154066534468870471680000000) (t 27)) (t 23)) x))) (num 21013969896455414891233148928000000))⟩

/-- `P_20_5_Deriv` (ass_leg_function.cc:13466-13525). -/
def P_20_5_Deriv : Prog :=
⟨[(1, (sqrt (num 5720330))), (2, (mul x x)), (3, (sub (num 1) (t 2))), (4, (sqrt (t 3))), (7, (mul (t 2) x)), (8, (mul
    (t 2) (t 2))), (9, (mul (t 8) (t 7))), (10, (mul (t 8) (t 8))), (13, (neg (t 3))), (14, (mul (t 8) x)), (18, (mul
    (t 13) (t 13))), (22, (mul (t 18) (t 13))), (26, (mul (t 18) (t 18))), (29, (mul (t 26) (t 13))), (32, (mul (t 26)
    (t 18))), (35, (mul (t 26) (t 22))), (42, (mul (t 3) (t 3))), (45, (mul (t 8) (t 2)))], (sub (div (mul (mul (mul
    (mul (t 1) (t 4)) (t 3)) (add (add (add (add (add (add (add (mul (mul (num 7880238711170780584212430848000000) (t
    9)) (t 10)) (mul (mul (mul (num 68952088722744330111858769920000000) (t 13)) (t 10)) (t 14))) (mul (mul (mul (num
    192080818584787776740178001920000000) (t 18)) (t 10)) (t 7))) (mul (mul (mul (num
    220092604628402660848120627200000000) (t 22)) (t 10)) x)) (mul (mul (num 110046302314201330424060313600000000) (t
    26)) (t 9))) (mul (mul (num 23109723485982279389052665856000000) (t 29)) (t 14))) (mul (mul (num
    1750736627725930256746414080000000) (t 32)) (t 7))) (mul (mul (num 31263154066534468870471680000000) (t 35)) x)))
    x) (num 4202793979291082978246629785600000)) (div (mul (mul (mul (t 1) (t 4)) (t 42)) (add (add (add (add (add
    (add (add (mul (mul (num 256107758113050368986904002560000000) (t 10)) (t 45)) (mul (mul (mul (num
    1664700427734827398414876016640000000) (t 13)) (t 10)) (t 8))) (mul (mul (mul (num
    3433444632203081509230681784320000000) (t 18)) (t 10)) (t 2))) (mul (mul (num
    2861203860169234591025568153600000000) (t 22)) (t 10))) (mul (mul (num 1001421351059232106858948853760000000) (t
    26)) (t 45))) (mul (mul (num 136557456962622560026220298240000000) (t 29)) (t 8))) (mul (mul (num
    5689894040109273334425845760000000) (t 32)) (t 2))) (mul (num 31263154066534468870471680000000) (t 35)))) (num
    21013969896455414891233148928000000)))⟩

/-- `P_20_6` (ass_leg_function.cc:13529-13564). -/
def P_20_6 : Prog :=
⟨[(1, (sqrt (num 22309287))), (2, (mul x x)), (3, (sub (num 1) (t 2))), (4, (mul (t 3) (t 3))), (7, (mul (t 2) (t
    2))), (8, (mul (t 7) (t 2))), (9, (mul (t 7) (t 7))), (12, (neg (t 3))), (16, (mul (t 12) (t 12))), (20, (mul (t
    16) (t 12))), (23, (mul (t 16) (t 16)))], (div (mul (mul (mul (t 1) (t 4)) (t 3)) (add (add (add (add (add (add
    (add (mul (mul (num 256107758113050368986904002560000000) (t 9)) (t 8)) (mul (mul (mul (num
    1664700427734827398414876016640000000) (t 12)) (t 9)) (t 7))) (mul (mul (mul (num
    3433444632203081509230681784320000000) (t 16)) (t 9)) (t 2))) (mul (mul (num
    2861203860169234591025568153600000000) (t 20)) (t 9))) (mul (mul (num 1001421351059232106858948853760000000) (t
    23)) (t 8))) (mul (mul (mul (num 136557456962622560026220298240000000) (t 23)) (t 12)) (t 7))) (mul (mul (mul (num
    5689894040109273334425845760000000) (t 23)) (t 16)) (t 2))) (mul (mul (num 31263154066534468870471680000000) (t
    23)) (t 20)))) (num 819544825961761180758092808192000000))⟩

/-- `P_20_6_Deriv` (ass_leg_function.cc:13568-13620). -/
def P_20_6_Deriv : Prog :=
⟨[(1, (sqrt (num 22309287))), (2, (mul x x)), (3, (sub (num 1) (t 2))), (4, (mul (t 3) (t 3))), (6, (mul (t 2) (t
    2))), (7, (mul (t 6) (t 2))), (8, (mul (t 6) (t 6))), (11, (neg (t 3))), (15, (mul (t 11) (t 11))), (19, (mul (t
    15) (t 11))), (22, (mul (t 15) (t 15))), (25, (mul (t 22) (t 11))), (28, (mul (t 22) (t 15))), (39, (mul (t 6)
    x)), (42, (mul (t 2) x))], (add (div (mul (mul (mul (neg (t 1)) (t 4)) (add (add (add (add (add (add (add (mul
    (mul (num 256107758113050368986904002560000000) (t 7)) (t 8)) (mul (mul (mul (num
    1664700427734827398414876016640000000) (t 11)) (t 8)) (t 6))) (mul (mul (mul (num
    3433444632203081509230681784320000000) (t 15)) (t 8)) (t 2))) (mul (mul (num
    2861203860169234591025568153600000000) (t 19)) (t 8))) (mul (mul (num 1001421351059232106858948853760000000) (t
    7)) (t 22))) (mul (mul (num 136557456962622560026220298240000000) (t 25)) (t 6))) (mul (mul (num
    5689894040109273334425845760000000) (t 28)) (t 2))) (mul (mul (num 31263154066534468870471680000000) (t 22)) (t
    19)))) x) (num 136590804326960196793015468032000000)) (div (mul (mul (mul (t 1) (t 4)) (t 3)) (add (add (add (add
    (add (add (mul (mul (num 6914909469052359962646408069120000000) (t 8)) (t 39)) (mul (mul (mul (num
    33710183661630254817901239336960000000) (t 11)) (t 8)) (t 42))) (mul (mul (mul (num
    51501669483046222638460226764800000000) (t 15)) (t 8)) x)) (mul (mul (mul (num
    30901001689827733583076136058880000000) (t 19)) (t 6)) (t 42))) (mul (mul (num
    7374102675981618241415896104960000000) (t 22)) (t 39))) (mul (mul (num 614508556331801520117991342080000000) (t
    25)) (t 42))) (mul (mul (num 11817472237150029233038295040000000) (t 28)) x))) (num
    819544825961761180758092808192000000)))⟩

/-- `P_20_7` (ass_leg_function.cc:13624-13660). -/
def P_20_7 : Prog :=
⟨[(1, (sqrt (num 2124694))), (2, (mul x x)), (3, (sub (num 1) (t 2))), (4, (mul (t 3) (t 3))), (6, (sqrt (t 3))), (9,
    (mul (t 2) (t 2))), (10, (mul (t 9) x)), (11, (mul (t 9) (t 9))), (14, (neg (t 3))), (15, (mul (t 2) x)), (19,
    (mul (t 14) (t 14))), (27, (mul (t 19) (t 19)))], (div (mul (mul (mul (mul (neg (t 1)) (t 6)) (t 4)) (t 3)) (add
    (add (add (add (add (add (mul (mul (num 6914909469052359962646408069120000000) (t 11)) (t 10)) (mul (mul (mul (num
    33710183661630254817901239336960000000) (t 14)) (t 11)) (t 15))) (mul (mul (mul (num
    51501669483046222638460226764800000000) (t 19)) (t 11)) x)) (mul (mul (mul (mul (num
    30901001689827733583076136058880000000) (t 19)) (t 14)) (t 9)) (t 15))) (mul (mul (num
    7374102675981618241415896104960000000) (t 27)) (t 10))) (mul (mul (mul (num 614508556331801520117991342080000000)
    (t 27)) (t 14)) (t 15))) (mul (mul (mul (num 11817472237150029233038295040000000) (t 27)) (t 19)) x))) (num
    4917268955770567084548556849152000000))⟩

/-- `P_20_7_Deriv` (ass_leg_function.cc:13664-13715). -/
def P_20_7_Deriv : Prog :=
⟨[(1, (sqrt (num 2124694))), (2, (mul x x)), (3, (sub (num 1) (t 2))), (4, (mul (t 3) (t 3))), (5, (sqrt (t 3))), (8,
    (mul (t 2) (t 2))), (9, (mul (t 8) x)), (10, (mul (t 8) (t 8))), (13, (neg (t 3))), (14, (mul (t 2) x)), (18, (mul
    (t 13) (t 13))), (22, (mul (t 18) (t 13))), (26, (mul (t 18) (t 18))), (29, (mul (t 26) (t 13))), (32, (mul (t 26)
    (t 18)))], (sub (div (mul (mul (mul (mul (t 1) (t 5)) (t 4)) (add (add (add (add (add (add (mul (mul (num
    6914909469052359962646408069120000000) (t 10)) (t 9)) (mul (mul (mul (num 33710183661630254817901239336960000000)
    (t 13)) (t 10)) (t 14))) (mul (mul (mul (num 51501669483046222638460226764800000000) (t 18)) (t 10)) x)) (mul (mul
    (mul (num 30901001689827733583076136058880000000) (t 22)) (t 8)) (t 14))) (mul (mul (num
    7374102675981618241415896104960000000) (t 26)) (t 9))) (mul (mul (num 614508556331801520117991342080000000) (t
    29)) (t 14))) (mul (mul (num 11817472237150029233038295040000000) (t 32)) x))) x) (num
    702466993681509583506936692736000000)) (div (mul (mul (mul (mul (t 1) (t 5)) (t 4)) (t 3)) (add (add (add (add
    (add (add (mul (mul (num 157314190420941189150205783572480000000) (t 10)) (t 8)) (mul (mul (mul (num
    576818698210117693550754539765760000000) (t 13)) (t 10)) (t 2))) (mul (mul (num
    648921035486382405244598857236480000000) (t 18)) (t 10))) (mul (mul (mul (num
    275299833236647081012860121251840000000) (t 22)) (t 8)) (t 2))) (mul (mul (num
    43015598943226106408259393945600000000) (t 26)) (t 8))) (mul (mul (num 1985335335841204911150433566720000000) (t
    29)) (t 2))) (mul (num 11817472237150029233038295040000000) (t 32)))) (num
    4917268955770567084548556849152000000)))⟩

/-- `P_20_8` (ass_leg_function.cc:13719-13751). -/
def P_20_8 : Prog :=
⟨[(1, (sqrt (num 1144066))), (2, (mul x x)), (3, (sub (num 1) (t 2))), (4, (mul (t 3) (t 3))), (5, (mul (t 4) (t 4))),
    (7, (mul (t 2) (t 2))), (8, (mul (t 7) (t 7))), (11, (neg (t 3))), (15, (mul (t 11) (t 11))), (22, (mul (t 15) (t
    15)))], (div (mul (mul (t 1) (t 5)) (add (add (add (add (add (add (mul (mul (num
    157314190420941189150205783572480000000) (t 8)) (t 7)) (mul (mul (mul (num
    576818698210117693550754539765760000000) (t 11)) (t 8)) (t 2))) (mul (mul (num
    648921035486382405244598857236480000000) (t 15)) (t 8))) (mul (mul (mul (mul (num
    275299833236647081012860121251840000000) (t 15)) (t 11)) (t 7)) (t 2))) (mul (mul (num
    43015598943226106408259393945600000000) (t 22)) (t 7))) (mul (mul (mul (num 1985335335841204911150433566720000000)
    (t 22)) (t 11)) (t 2))) (mul (mul (num 11817472237150029233038295040000000) (t 22)) (t 15)))) (num
    68841765380787939183679795888128000000))⟩

/-- `P_20_8_Deriv` (ass_leg_function.cc:13755-13801). -/
def P_20_8_Deriv : Prog :=
⟨[(1, (sqrt (num 1144066))), (2, (mul x x)), (3, (sub (num 1) (t 2))), (4, (mul (t 3) (t 3))), (7, (mul (t 2) (t 2))),
    (8, (mul (t 7) (t 7))), (11, (neg (t 3))), (15, (mul (t 11) (t 11))), (18, (mul (t 15) (t 11))), (22, (mul (t 15)
    (t 15))), (25, (mul (t 22) (t 11))), (34, (mul (t 4) (t 4))), (36, (mul (t 2) x))], (add (div (mul (mul (mul (mul
    (neg (t 1)) (t 4)) (t 3)) (add (add (add (add (add (add (mul (mul (num 157314190420941189150205783572480000000) (t
    8)) (t 7)) (mul (mul (mul (num 576818698210117693550754539765760000000) (t 11)) (t 8)) (t 2))) (mul (mul (num
    648921035486382405244598857236480000000) (t 15)) (t 8))) (mul (mul (mul (num
    275299833236647081012860121251840000000) (t 18)) (t 7)) (t 2))) (mul (mul (num
    43015598943226106408259393945600000000) (t 22)) (t 7))) (mul (mul (num 1985335335841204911150433566720000000) (t
    25)) (t 2))) (mul (mul (num 11817472237150029233038295040000000) (t 22)) (t 15)))) x) (num
    8605220672598492397959974486016000000)) (div (mul (mul (t 1) (t 34)) (add (add (add (add (add (mul (mul (num
    3041407681471529656903978482401280000000) (t 8)) (t 36)) (mul (mul (mul (num
    8363871124046706556485940826603520000000) (t 11)) (t 8)) x)) (mul (mul (mul (num
    6843167283310941728033951585402880000000) (t 15)) (t 7)) (t 36))) (mul (mul (mul (num
    1995923790965691337343235879075840000000) (t 18)) (t 7)) x)) (mul (mul (num
    191915749131316474744541911449600000000) (t 22)) (t 36))) (mul (mul (num 4112480338528210173097326673920000000) (t
    25)) x))) (num 68841765380787939183679795888128000000)))⟩

/-- `P_20_9` (ass_leg_function.cc:13805-13840). -/
def P_20_9 : Prog :=
⟨[(1, (sqrt (num 99533742))), (2, (mul x x)), (3, (sub (num 1) (t 2))), (4, (mul (t 3) (t 3))), (5, (mul (t 4) (t
    4))), (6, (sqrt (t 3))), (9, (mul (t 2) x)), (10, (mul (t 2) (t 2))), (11, (mul (t 10) (t 10))), (14, (neg (t
    3))), (18, (mul (t 14) (t 14))), (26, (mul (t 18) (t 18)))], (div (mul (mul (mul (neg (t 1)) (t 6)) (t 5)) (add
    (add (add (add (add (mul (mul (num 3041407681471529656903978482401280000000) (t 11)) (t 9)) (mul (mul (mul (num
    8363871124046706556485940826603520000000) (t 14)) (t 11)) x)) (mul (mul (mul (num
    6843167283310941728033951585402880000000) (t 18)) (t 10)) (t 9))) (mul (mul (mul (mul (num
    1995923790965691337343235879075840000000) (t 18)) (t 14)) (t 10)) x)) (mul (mul (num
    191915749131316474744541911449600000000) (t 26)) (t 9))) (mul (mul (mul (num
    4112480338528210173097326673920000000) (t 26)) (t 14)) x))) (num 11978467176257101417960284484534272000000))⟩

/-- `P_20_9_Deriv` (ass_leg_function.cc:13844-13891). -/
def P_20_9_Deriv : Prog :=
⟨[(1, (sqrt (num 99533742))), (2, (mul x x)), (3, (sub (num 1) (t 2))), (4, (mul (t 3) (t 3))), (6, (sqrt (t 3))), (9,
    (mul (t 2) x)), (10, (mul (t 2) (t 2))), (11, (mul (t 10) (t 10))), (14, (neg (t 3))), (18, (mul (t 14) (t 14))),
    (22, (mul (t 18) (t 14))), (26, (mul (t 18) (t 18))), (29, (mul (t 26) (t 14))), (36, (mul (t 4) (t 4)))], (sub
    (div (mul (mul (mul (mul (mul (t 1) (t 6)) (t 4)) (t 3)) (add (add (add (add (add (mul (mul (num
    3041407681471529656903978482401280000000) (t 11)) (t 9)) (mul (mul (mul (num
    8363871124046706556485940826603520000000) (t 14)) (t 11)) x)) (mul (mul (mul (num
    6843167283310941728033951585402880000000) (t 18)) (t 10)) (t 9))) (mul (mul (mul (num
    1995923790965691337343235879075840000000) (t 22)) (t 10)) x)) (mul (mul (num
    191915749131316474744541911449600000000) (t 9)) (t 26))) (mul (mul (num 4112480338528210173097326673920000000) (t
    29)) x))) x) (num 1330940797361900157551142720503808000000)) (div (mul (mul (mul (t 1) (t 6)) (t 36)) (add (add
    (add (add (add (mul (mul (num 50183226744280239338915644959621120000000) (t 11)) (t 2)) (mul (mul (num
    102647509249664125920509273781043200000000) (t 14)) (t 11))) (mul (mul (mul (num
    59877713728970740120297076372275200000000) (t 18)) (t 10)) (t 2))) (mul (mul (num
    11514944947878988484672514686976000000000) (t 22)) (t 10))) (mul (mul (num
    616872050779231525964599001088000000000) (t 26)) (t 2))) (mul (num 4112480338528210173097326673920000000) (t
    29)))) (num 11978467176257101417960284484534272000000)))⟩

/-- `P_20_10` (ass_leg_function.cc:13895-13926). -/
def P_20_10 : Prog :=
⟨[(1, (sqrt (num 7540435))), (2, (mul x x)), (3, (sub (num 1) (t 2))), (4, (mul (t 3) (t 3))), (5, (mul (t 4) (t 4))),
    (8, (mul (t 2) (t 2))), (9, (mul (t 8) (t 8))), (12, (neg (t 3))), (15, (mul (t 12) (t 12))), (22, (mul (t 15) (t
    15)))], (div (mul (mul (mul (t 1) (t 5)) (t 3)) (add (add (add (add (add (mul (mul (num
    50183226744280239338915644959621120000000) (t 9)) (t 2)) (mul (mul (num
    102647509249664125920509273781043200000000) (t 12)) (t 9))) (mul (mul (mul (num
    59877713728970740120297076372275200000000) (t 15)) (t 8)) (t 2))) (mul (mul (mul (num
    11514944947878988484672514686976000000000) (t 15)) (t 12)) (t 8))) (mul (mul (num
    616872050779231525964599001088000000000) (t 22)) (t 2))) (mul (mul (num 4112480338528210173097326673920000000) (t
    22)) (t 12)))) (num 59892335881285507089801422422671360000000))⟩

/-- `P_20_10_Deriv` (ass_leg_function.cc:13930-13972). -/
def P_20_10_Deriv : Prog :=
⟨[(1, (sqrt (num 7540435))), (2, (mul x x)), (3, (sub (num 1) (t 2))), (4, (mul (t 3) (t 3))), (5, (mul (t 4) (t 4))),
    (7, (mul (t 2) (t 2))), (8, (mul (t 7) (t 7))), (11, (neg (t 3))), (14, (mul (t 11) (t 11))), (18, (mul (t 14) (t
    11))), (21, (mul (t 14) (t 14))), (34, (mul (t 2) x))], (add (div (mul (mul (mul (neg (t 1)) (t 5)) (add (add (add
    (add (add (mul (mul (num 50183226744280239338915644959621120000000) (t 8)) (t 2)) (mul (mul (num
    102647509249664125920509273781043200000000) (t 11)) (t 8))) (mul (mul (mul (num
    59877713728970740120297076372275200000000) (t 14)) (t 7)) (t 2))) (mul (mul (num
    11514944947878988484672514686976000000000) (t 18)) (t 7))) (mul (mul (num 616872050779231525964599001088000000000)
    (t 21)) (t 2))) (mul (mul (num 4112480338528210173097326673920000000) (t 21)) (t 11)))) x) (num
    5989233588128550708980142242267136000000)) (div (mul (mul (mul (t 1) (t 5)) (t 3)) (add (add (add (add (mul (mul
    (num 707127285942130645230174997158297600000000) (t 8)) x) (mul (mul (mul (num
    1060690928913195967845262495737446400000000) (t 11)) (t 7)) (t 34))) (mul (mul (mul (num
    428355952061098371629817546355507200000000) (t 14)) (t 7)) x)) (mul (mul (num
    50994756197749806146406850756608000000000) (t 18)) (t 34))) (mul (mul (num
    1274868904943745153660171268915200000000) (t 21)) x))) (num 59892335881285507089801422422671360000000)))⟩

/-- `P_20_11` (ass_leg_function.cc:13976-14010). -/
def P_20_11 : Prog :=
⟨[(1, (sqrt (num 93501394))), (2, (mul x x)), (3, (sub (num 1) (t 2))), (4, (mul (t 3) (t 3))), (5, (mul (t 4) (t
    4))), (7, (sqrt (t 3))), (10, (mul (t 2) (t 2))), (11, (mul (t 10) (t 10))), (14, (neg (t 3))), (15, (mul (t 2)
    x)), (19, (mul (t 14) (t 14))), (26, (mul (t 19) (t 19)))], (div (mul (mul (mul (mul (neg (t 1)) (t 7)) (t 5)) (t
    3)) (add (add (add (add (mul (mul (num 707127285942130645230174997158297600000000) (t 11)) x) (mul (mul (mul (num
    1060690928913195967845262495737446400000000) (t 14)) (t 10)) (t 15))) (mul (mul (mul (num
    428355952061098371629817546355507200000000) (t 19)) (t 10)) x)) (mul (mul (mul (num
    50994756197749806146406850756608000000000) (t 19)) (t 14)) (t 15))) (mul (mul (num
    1274868904943745153660171268915200000000) (t 26)) x))) (num 3713324824639701439567688190205624320000000))⟩

/-- `P_20_11_Deriv` (ass_leg_function.cc:14014-14057). -/
def P_20_11_Deriv : Prog :=
⟨[(1, (sqrt (num 93501394))), (2, (mul x x)), (3, (sub (num 1) (t 2))), (4, (mul (t 3) (t 3))), (5, (mul (t 4) (t
    4))), (6, (sqrt (t 3))), (9, (mul (t 2) (t 2))), (10, (mul (t 9) (t 9))), (13, (neg (t 3))), (14, (mul (t 2) x)),
    (18, (mul (t 13) (t 13))), (22, (mul (t 18) (t 13))), (25, (mul (t 18) (t 18)))], (sub (div (mul (mul (mul (mul (t
    1) (t 6)) (t 5)) (add (add (add (add (mul (mul (num 707127285942130645230174997158297600000000) (t 10)) x) (mul
    (mul (mul (num 1060690928913195967845262495737446400000000) (t 13)) (t 9)) (t 14))) (mul (mul (mul (num
    428355952061098371629817546355507200000000) (t 18)) (t 9)) x)) (mul (mul (num
    50994756197749806146406850756608000000000) (t 22)) (t 14))) (mul (mul (num
    1274868904943745153660171268915200000000) (t 25)) x))) x) (num 337574984058154676324335290018693120000000)) (div
    (mul (mul (mul (mul (t 1) (t 6)) (t 5)) (t 3)) (add (add (add (add (mul (num
    8485527431305567742762099965899571200000000) (t 10)) (mul (mul (mul (num
    9138260310636765261436107655584153600000000) (t 13)) (t 9)) (t 2))) (mul (mul (num
    2447748297491990695027528836317184000000000) (t 18)) (t 9))) (mul (mul (num
    163183219832799379668501922421145600000000) (t 22)) (t 2))) (mul (num 1274868904943745153660171268915200000000) (t
    25)))) (num 3713324824639701439567688190205624320000000)))⟩

/-- `P_20_12` (ass_leg_function.cc:14061-14091). -/
def P_20_12 : Prog :=
⟨[(1, (sqrt (num 46750697))), (2, (mul x x)), (3, (sub (num 1) (t 2))), (4, (mul (t 3) (t 3))), (5, (mul (t 4) (t
    4))), (8, (mul (t 2) (t 2))), (9, (mul (t 8) (t 8))), (11, (neg (t 3))), (15, (mul (t 11) (t 11))), (21, (mul (t
    15) (t 15)))], (div (mul (mul (mul (t 1) (t 5)) (t 4)) (add (add (add (add (mul (num
    8485527431305567742762099965899571200000000) (t 9)) (mul (mul (mul (num
    9138260310636765261436107655584153600000000) (t 11)) (t 8)) (t 2))) (mul (mul (num
    2447748297491990695027528836317184000000000) (t 15)) (t 8))) (mul (mul (mul (num
    163183219832799379668501922421145600000000) (t 15)) (t 11)) (t 2))) (mul (num
    1274868904943745153660171268915200000000) (t 21)))) (num 44559897895676417274812258282467491840000000))⟩

/-- `P_20_12_Deriv` (ass_leg_function.cc:14095-14135). -/
def P_20_12_Deriv : Prog :=
⟨[(1, (sqrt (num 46750697))), (2, (mul x x)), (3, (sub (num 1) (t 2))), (4, (mul (t 3) (t 3))), (5, (mul (t 4) (t
    4))), (8, (mul (t 2) (t 2))), (9, (mul (t 8) (t 8))), (11, (neg (t 3))), (15, (mul (t 11) (t 11))), (18, (mul (t
    15) (t 11))), (21, (mul (t 15) (t 15))), (29, (mul (t 2) x))], (add (div (mul (mul (mul (mul (neg (t 1)) (t 5)) (t
    3)) (add (add (add (add (mul (num 8485527431305567742762099965899571200000000) (t 9)) (mul (mul (mul (num
    9138260310636765261436107655584153600000000) (t 11)) (t 8)) (t 2))) (mul (mul (num
    2447748297491990695027528836317184000000000) (t 15)) (t 8))) (mul (mul (num
    163183219832799379668501922421145600000000) (t 18)) (t 2))) (mul (num 1274868904943745153660171268915200000000) (t
    21)))) x) (num 3713324824639701439567688190205624320000000)) (div (mul (mul (mul (t 1) (t 5)) (t 4)) (add (add
    (add (mul (mul (num 86160740071718072464969015038364876800000000) (t 8)) (t 29)) (mul (mul (mul (num
    64620555053788554348726761278773657600000000) (t 11)) (t 8)) x)) (mul (mul (num
    10770092508964759058121126879795609600000000) (t 29)) (t 15))) (mul (mul (num
    336565390905148720566285214993612800000000) (t 18)) x))) (num 44559897895676417274812258282467491840000000)))⟩

/-- `P_20_13` (ass_leg_function.cc:14139-14168). -/
def P_20_13 : Prog :=
⟨[(1, (sqrt (num 3085546002))), (2, (mul x x)), (3, (sub (num 1) (t 2))), (4, (mul (t 3) (t 3))), (5, (mul (t 4) (t
    4))), (7, (sqrt (t 3))), (10, (mul (t 2) x)), (11, (mul (t 2) (t 2))), (14, (neg (t 3))), (18, (mul (t 14) (t
    14)))], (div (mul (mul (mul (mul (neg (t 1)) (t 7)) (t 5)) (t 4)) (add (add (add (mul (mul (num
    86160740071718072464969015038364876800000000) (t 11)) (t 10)) (mul (mul (mul (num
    64620555053788554348726761278773657600000000) (t 14)) (t 11)) x)) (mul (mul (num
    10770092508964759058121126879795609600000000) (t 18)) (t 10))) (mul (mul (mul (num
    336565390905148720566285214993612800000000) (t 18)) (t 14)) x))) (num
    5881906522229287080275218093285708922880000000))⟩

/-- `P_20_13_Deriv` (ass_leg_function.cc:14172-14209). -/
def P_20_13_Deriv : Prog :=
⟨[(1, (sqrt (num 3085546002))), (2, (mul x x)), (3, (sub (num 1) (t 2))), (4, (mul (t 3) (t 3))), (5, (mul (t 4) (t
    4))), (7, (sqrt (t 3))), (10, (mul (t 2) x)), (11, (mul (t 2) (t 2))), (14, (neg (t 3))), (18, (mul (t 14) (t
    14))), (21, (mul (t 18) (t 14)))], (sub (div (mul (mul (mul (mul (mul (t 1) (t 7)) (t 5)) (t 3)) (add (add (add
    (mul (mul (num 86160740071718072464969015038364876800000000) (t 11)) (t 10)) (mul (mul (mul (num
    64620555053788554348726761278773657600000000) (t 14)) (t 11)) x)) (mul (mul (num
    10770092508964759058121126879795609600000000) (t 18)) (t 10))) (mul (mul (num
    336565390905148720566285214993612800000000) (t 21)) x))) x) (num 452454347863791313867324468714285301760000000))
    (div (mul (mul (mul (mul (t 1) (t 7)) (t 5)) (t 4)) (add (add (add (mul (mul (num
    732366290609603615952236627826101452800000000) (t 11)) (t 2)) (mul (mul (num
    366183145304801807976118313913050726400000000) (t 14)) (t 11))) (mul (mul (num
    34329669872325169497761091929348505600000000) (t 18)) (t 2))) (mul (num
    336565390905148720566285214993612800000000) (t 21)))) (num 5881906522229287080275218093285708922880000000)))⟩

/-- `P_20_14` (ass_leg_function.cc:14213-14238). -/
def P_20_14 : Prog :=
⟨[(1, (sqrt (num 12964479))), (2, (mul x x)), (3, (sub (num 1) (t 2))), (4, (mul (t 3) (t 3))), (6, (mul (t 4) (t
    4))), (9, (mul (t 2) (t 2))), (12, (neg (t 3))), (15, (mul (t 12) (t 12)))], (div (mul (mul (mul (mul (t 1) (t 6))
    (t 4)) (t 3)) (add (add (add (mul (mul (num 732366290609603615952236627826101452800000000) (t 9)) (t 2)) (mul (mul
    (num 366183145304801807976118313913050726400000000) (t 9)) (t 12))) (mul (mul (num
    34329669872325169497761091929348505600000000) (t 15)) (t 2))) (mul (mul (num
    336565390905148720566285214993612800000000) (t 12)) (t 15)))) (num
    5881906522229287080275218093285708922880000000))⟩

/-- `P_20_14_Deriv` (ass_leg_function.cc:14242-14273). -/
def P_20_14_Deriv : Prog :=
⟨[(1, (sqrt (num 12964479))), (2, (mul x x)), (3, (sub (num 1) (t 2))), (4, (mul (t 3) (t 3))), (5, (mul (t 4) (t
    4))), (8, (mul (t 2) (t 2))), (11, (neg (t 3))), (14, (mul (t 11) (t 11)))], (add (div (mul (mul (mul (mul (neg (t
    1)) (t 5)) (t 4)) (add (add (add (mul (mul (num 732366290609603615952236627826101452800000000) (t 8)) (t 2)) (mul
    (mul (num 366183145304801807976118313913050726400000000) (t 11)) (t 8))) (mul (mul (num
    34329669872325169497761091929348505600000000) (t 14)) (t 2))) (mul (mul (num
    336565390905148720566285214993612800000000) (t 14)) (t 11)))) x) (num
    420136180159234791448229863806122065920000000)) (div (mul (mul (mul (mul (t 1) (t 5)) (t 4)) (t 3)) (add (add (mul
    (mul (num 5126564034267225311665656394782710169600000000) (t 8)) x) (mul (mul (mul (num
    1602051260708507909895517623369596928000000000) (t 11)) (t 2)) x)) (mul (mul (num
    70678732090081231318919895148658688000000000) (t 14)) x))) (num 5881906522229287080275218093285708922880000000)))⟩

/-- `P_20_15` (ass_leg_function.cc:14277-14303). -/
def P_20_15 : Prog :=
⟨[(1, (sqrt (num 302504510))), (2, (mul x x)), (3, (sub (num 1) (t 2))), (4, (mul (t 3) (t 3))), (6, (mul (t 4) (t
    4))), (8, (sqrt (t 3))), (11, (mul (t 2) (t 2))), (14, (neg (t 3))), (18, (mul (t 14) (t 14)))], (div (mul (mul
    (mul (mul (mul (neg (t 1)) (t 8)) (t 6)) (t 4)) (t 3)) (add (add (mul (mul (num
    5126564034267225311665656394782710169600000000) (t 11)) x) (mul (mul (mul (num
    1602051260708507909895517623369596928000000000) (t 14)) (t 2)) x)) (mul (mul (num
    70678732090081231318919895148658688000000000) (t 18)) x))) (num
    411733456556050095619265266529999624601600000000))⟩

/-- `P_20_15_Deriv` (ass_leg_function.cc:14307-14339). -/
def P_20_15_Deriv : Prog :=
⟨[(1, (sqrt (num 302504510))), (2, (mul x x)), (3, (sub (num 1) (t 2))), (4, (mul (t 3) (t 3))), (5, (mul (t 4) (t
    4))), (7, (sqrt (t 3))), (10, (mul (t 2) (t 2))), (13, (neg (t 3))), (17, (mul (t 13) (t 13)))], (sub (div (mul
    (mul (mul (mul (mul (t 1) (t 7)) (t 5)) (t 4)) (add (add (mul (mul (num
    5126564034267225311665656394782710169600000000) (t 10)) x) (mul (mul (mul (num
    1602051260708507909895517623369596928000000000) (t 13)) (t 2)) x)) (mul (mul (num
    70678732090081231318919895148658688000000000) (t 17)) x))) x) (num
    27448897103736673041284351101999974973440000000)) (div (mul (mul (mul (mul (mul (t 1) (t 7)) (t 5)) (t 4)) (t 3))
    (add (add (mul (num 28836922692753142378119317220652744704000000000) (t 10)) (mul (mul (num
    5088868710485848654962232450703425536000000000) (t 13)) (t 2))) (mul (num
    70678732090081231318919895148658688000000000) (t 17)))) (num 411733456556050095619265266529999624601600000000)))⟩

/-- `P_20_16` (ass_leg_function.cc:14343-14369). -/
def P_20_16 : Prog :=
⟨[(1, (sqrt (num 60500902))), (2, (mul x x)), (3, (sub (num 1) (t 2))), (4, (mul (t 3) (t 3))), (5, (mul (t 4) (t
    4))), (6, (mul (t 5) (t 5))), (8, (mul (t 2) (t 2))), (10, (neg (t 3))), (13, (mul (t 10) (t 10)))], (div (mul
    (mul (t 1) (t 6)) (add (add (mul (num 28836922692753142378119317220652744704000000000) (t 8)) (mul (mul (num
    5088868710485848654962232450703425536000000000) (t 10)) (t 2))) (mul (num
    70678732090081231318919895148658688000000000) (t 13)))) (num 2470400739336300573715591599179997747609600000000))⟩

/-- `P_20_16_Deriv` (ass_leg_function.cc:14373-14403). -/
def P_20_16_Deriv : Prog :=
⟨[(1, (sqrt (num 60500902))), (2, (mul x x)), (3, (sub (num 1) (t 2))), (4, (mul (t 3) (t 3))), (6, (mul (t 4) (t
    4))), (9, (mul (t 2) (t 2))), (11, (neg (t 3))), (14, (mul (t 11) (t 11))), (20, (mul (t 6) (t 6)))], (add (div
    (mul (mul (mul (mul (mul (neg (t 1)) (t 6)) (t 4)) (t 3)) (add (add (mul (num
    28836922692753142378119317220652744704000000000) (t 9)) (mul (mul (num
    5088868710485848654962232450703425536000000000) (t 11)) (t 2))) (mul (num
    70678732090081231318919895148658688000000000) (t 14)))) x) (num 154400046208518785857224474948749859225600000000))
    (div (mul (mul (t 1) (t 20)) (add (mul (mul (num 125525428191984266822401733784017829888000000000) (t 2)) x) (mul
    (mul (num 10460452349332022235200144482001485824000000000) (t 11)) x))) (num
    2470400739336300573715591599179997747609600000000)))⟩

/-- `P_20_17` (ass_leg_function.cc:14407-14428). -/
def P_20_17 : Prog :=
⟨[(1, (sqrt (num 2238533374))), (2, (mul x x)), (3, (sub (num 1) (t 2))), (4, (mul (t 3) (t 3))), (5, (mul (t 4) (t
    4))), (6, (mul (t 5) (t 5))), (7, (sqrt (t 3)))], (div (mul (mul (mul (neg (t 1)) (t 7)) (t 6)) (sub (mul (mul
    (num 125525428191984266822401733784017829888000000000) (t 2)) x) (mul (mul (num
    10460452349332022235200144482001485824000000000) (t 3)) x))) (num
    182809654710886242454953778339319833323110400000000))⟩

/-- `P_20_17_Deriv` (ass_leg_function.cc:14432-14457). -/
def P_20_17_Deriv : Prog :=
⟨[(1, (sqrt (num 2238533374))), (2, (mul x x)), (3, (sub (num 1) (t 2))), (4, (mul (t 3) (t 3))), (6, (mul (t 4) (t
    4))), (8, (sqrt (t 3))), (20, (mul (t 6) (t 6)))], (sub (div (mul (mul (mul (mul (mul (mul (t 1) (t 8)) (t 6)) (t
    4)) (t 3)) (sub (mul (mul (num 125525428191984266822401733784017829888000000000) (t 2)) x) (mul (mul (num
    10460452349332022235200144482001485824000000000) (t 3)) x))) x) (num
    10753509100640367203232575196430578430771200000000)) (div (mul (mul (mul (t 1) (t 8)) (t 20)) (sub (mul (num
    407957641623948867172805634798057947136000000000) (t 2)) (num 10460452349332022235200144482001485824000000000)))
    (num 182809654710886242454953778339319833323110400000000)))⟩

/-- `P_20_18` (ass_leg_function.cc:14461-14480). -/
def P_20_18 : Prog :=
⟨[(1, (sqrt (num 176726319))), (2, (mul x x)), (3, (sub (num 1) (t 2))), (4, (mul (t 3) (t 3))), (5, (mul (t 4) (t
    4))), (6, (mul (t 5) (t 5)))], (div (mul (mul (mul (t 1) (t 6)) (t 3)) (sub (mul (num
    407957641623948867172805634798057947136000000000) (t 2)) (num 10460452349332022235200144482001485824000000000)))
    (num 548428964132658727364861335017959499969331200000000))⟩

/-- `P_20_18_Deriv` (ass_leg_function.cc:14484-14504). -/
def P_20_18_Deriv : Prog :=
⟨[(1, (sqrt (num 176726319))), (2, (mul x x)), (3, (sub (num 1) (t 2))), (4, (mul (t 3) (t 3))), (5, (mul (t 4) (t
    4))), (6, (mul (t 5) (t 5)))], (add (div (mul (mul (mul (neg (t 1)) (t 6)) (sub (mul (num
    407957641623948867172805634798057947136000000000) (t 2)) (num 10460452349332022235200144482001485824000000000)))
    x) (num 30468275785147707075825629723219972220518400000000)) (mul (mul (mul (mul (div (num 195) (num 131072)) (t
    1)) (t 6)) (t 3)) x))⟩

/-- `P_20_19` (ass_leg_function.cc:14508-14526). -/
def P_20_19 : Prog :=
⟨[(1, (sqrt (num 1531628098))), (2, (mul x x)), (3, (sub (num 1) (t 2))), (4, (mul (t 3) (t 3))), (5, (mul (t 4) (t
    4))), (6, (mul (t 5) (t 5))), (8, (sqrt (t 3)))], (mul (mul (mul (mul (mul (div (neg (num 15)) (num 262144)) (t
    1)) (t 8)) (t 6)) (t 3)) x)⟩

/-- `P_20_19_Deriv` (ass_leg_function.cc:14530-14549). -/
def P_20_19_Deriv : Prog :=
⟨[(1, (sqrt (num 1531628098))), (2, (mul x x)), (3, (sub (num 1) (t 2))), (4, (mul (t 3) (t 3))), (5, (mul (t 4) (t
    4))), (6, (mul (t 5) (t 5))), (7, (sqrt (t 3)))], (sub (mul (mul (mul (mul (div (num 285) (num 262144)) (t 1)) (t
    7)) (t 6)) (t 2)) (mul (mul (mul (mul (div (num 15) (num 262144)) (t 1)) (t 7)) (t 6)) (t 3)))⟩

/-- `P_20_20` (ass_leg_function.cc:14553-14567). -/
def P_20_20 : Prog :=
⟨[(1, (sqrt (num 3829070245))), (2, (mul x x)), (4, (sq (sub (num 1) (t 2)))), (5, (mul (t 4) (t 4))), (6, (mul (t 5)
    (t 5)))], (mul (mul (mul (div (num 3) (num 524288)) (t 1)) (t 6)) (t 4))⟩

/-- `P_20_20_Deriv` (ass_leg_function.cc:14571-14587). -/
def P_20_20_Deriv : Prog :=
⟨[(1, (sqrt (num 3829070245))), (2, (mul x x)), (3, (sub (num 1) (t 2))), (4, (mul (t 3) (t 3))), (5, (mul (t 4) (t
    4))), (6, (mul (t 5) (t 5)))], (mul (mul (mul (mul (div (neg (num 15)) (num 131072)) (t 1)) (t 6)) (t 3)) x)⟩

/-- The functions `P_20_m`. -/
def vals20 : List Prog := [P_20_0, P_20_1, P_20_2, P_20_3, P_20_4, P_20_5, P_20_6, P_20_7, P_20_8, P_20_9, P_20_10,
    P_20_11, P_20_12, P_20_13, P_20_14, P_20_15, P_20_16, P_20_17, P_20_18, P_20_19, P_20_20]

/-- The functions `P_20_m_Deriv`. -/
def ders20 : List Prog := [P_20_0_Deriv, P_20_1_Deriv, P_20_2_Deriv, P_20_3_Deriv, P_20_4_Deriv, P_20_5_Deriv,
    P_20_6_Deriv, P_20_7_Deriv, P_20_8_Deriv, P_20_9_Deriv, P_20_10_Deriv, P_20_11_Deriv, P_20_12_Deriv,
    P_20_13_Deriv, P_20_14_Deriv, P_20_15_Deriv, P_20_16_Deriv, P_20_17_Deriv, P_20_18_Deriv, P_20_19_Deriv,
    P_20_20_Deriv]

/-- Certificates. -/
def certs20 : List (ℕ × ℕ × ℕ) := [(1, 1, 1), (105, 1, 2), (43890, 1, 2), (504735, 1, 12), (5720330, 1, 72), (5720330,
    1, 1440), (22309287, 1, 14400), (2124694, 1, 907200), (1144066, 1, 23587200), (99533742, 1, 47174400), (7540435,
    1, 3113510400), (93501394, 1, 15567552000), (46750697, 1, 373621248000), (3085546002, 1, 747242496000), (12964479,
    1, 177843714048000), (302504510, 1, 533531142144000), (60500902, 1, 16005934264320000), (2238533374, 1,
    32011868528640000), (176726319, 1, 1216451004088320000), (1531628098, 1, 3649353012264960000), (3829070245, 1,
    14597412049059840000)]

theorem row20 : checkRow 20 0 certs20 vals20 ders20 = true := by decide +kernel

end PiBem.Legendre.Table

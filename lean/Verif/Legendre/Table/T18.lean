import Verif.Legendre.Check

/-! Generated by tools/leggen.py from source/ass_leg_function.cc: the functions `P_18_m` and `P_18_m_Deriv`. -/

namespace PiBem.Legendre.Table

open Ex

/-- `P_18_0` (ass_leg_function.cc:9898-9928). -/
def P_18_0 : Prog :=
⟨[(1, (mul x x)), (2, (mul (t 1) (t 1))), (3, (mul (t 2) (t 2))), (4, (mul (t 3) (t 3))), (6, (sub (t 1) (num 1))),
    (9, (mul (t 6) (t 6))), (10, (mul (t 2) (t 1))), (14, (mul (t 6) (t 9))), (18, (mul (t 9) (t 9))), (31, (mul (t
    18) (t 18)))], (add (add (add (add (add (add (add (add (add (mul (t 4) (t 1)) (mul (mul (div (num 153) (num 2)) (t
    6)) (t 4))) (mul (mul (mul (div (num 2295) (num 2)) (t 9)) (t 3)) (t 10))) (mul (mul (mul (div (num 23205) (num
    4)) (t 14)) (t 3)) (t 2))) (mul (mul (mul (div (num 765765) (num 64)) (t 18)) (t 3)) (t 1))) (mul (mul (mul (div
    (num 1378377) (num 128)) (t 18)) (t 6)) (t 3))) (mul (mul (mul (div (num 1072071) (num 256)) (t 18)) (t 9)) (t
    10))) (mul (mul (mul (div (num 328185) (num 512)) (t 18)) (t 14)) (t 2))) (mul (mul (div (num 984555) (num 32768))
    (t 31)) (t 1))) (mul (mul (div (num 12155) (num 65536)) (t 31)) (t 6)))⟩

/-- `P_18_0_Deriv` (ass_leg_function.cc:9930-9965). -/
def P_18_0_Deriv : Prog :=
⟨[(1, (mul x x)), (2, (mul (t 1) (t 1))), (3, (mul (t 2) (t 2))), (4, (mul (t 3) (t 3))), (7, (sub (t 1) (num 1))),
    (8, (mul (t 1) x)), (9, (mul (t 2) (t 8))), (13, (mul (t 7) (t 7))), (14, (mul (t 2) x)), (18, (mul (t 13) (t
    7))), (22, (mul (t 13) (t 13))), (35, (mul (t 22) (t 22)))], (add (add (add (add (add (add (add (add (mul (mul
    (num 171) (t 4)) x) (mul (mul (mul (num 5814) (t 7)) (t 3)) (t 9))) (mul (mul (mul (div (num 101745) (num 2)) (t
    13)) (t 3)) (t 14))) (mul (mul (mul (div (num 1322685) (num 8)) (t 18)) (t 3)) (t 8))) (mul (mul (mul (div (num
    14549535) (num 64)) (t 22)) (t 3)) x)) (mul (mul (mul (div (num 8729721) (num 64)) (t 22)) (t 7)) (t 9))) (mul
    (mul (mul (div (num 8729721) (num 256)) (t 22)) (t 13)) (t 14))) (mul (mul (mul (div (num 6235515) (num 2048)) (t
    22)) (t 18)) (t 8))) (mul (mul (div (num 2078505) (num 32768)) (t 35)) x))⟩

/-- `P_18_1` (ass_leg_function.cc:9969-10013). -/
def P_18_1 : Prog :=
⟨[(1, (sqrt (num 38))), (2, (mul x x)), (3, (sub (num 1) (t 2))), (4, (sqrt (t 3))), (6, (mul (t 2) (t 2))), (7, (mul
    (t 6) (t 6))), (8, (mul (t 7) (t 7))), (11, (neg (t 3))), (12, (mul (t 2) x)), (13, (mul (t 6) (t 12))), (17, (mul
    (t 11) (t 11))), (18, (mul (t 6) x)), (22, (mul (t 17) (t 11))), (26, (mul (t 17) (t 17))), (39, (mul (t 26) (t
    26)))], (div (mul (mul (neg (t 1)) (t 4)) (add (add (add (add (add (add (add (add (mul (mul (num
    286996798814155702272000) (t 8)) x) (mul (mul (mul (num 9757891159681293877248000) (t 11)) (t 7)) (t 13))) (mul
    (mul (mul (num 85381547647211321425920000) (t 17)) (t 7)) (t 18))) (mul (mul (mul (num
    277490029853436794634240000) (t 22)) (t 7)) (t 12))) (mul (mul (mul (num 381548791048475592622080000) (t 26)) (t
    7)) x)) (mul (mul (mul (num 228929274629085355573248000) (t 26)) (t 11)) (t 13))) (mul (mul (mul (num
    57232318657271338893312000) (t 26)) (t 17)) (t 18))) (mul (mul (mul (num 5110028451542083829760000) (t 26)) (t
    22)) (t 12))) (mul (mul (num 106458926073793413120000) (t 39)) x))) (num 191331199209437134848000))⟩

/-- `P_18_1_Deriv` (ass_leg_function.cc:10017-10080). -/
def P_18_1_Deriv : Prog :=
⟨[(1, (sqrt (num 38))), (2, (mul x x)), (3, (sub (num 1) (t 2))), (4, (sqrt (t 3))), (7, (mul (t 2) (t 2))), (8, (mul
    (t 7) (t 7))), (9, (mul (t 8) (t 8))), (12, (neg (t 3))), (13, (mul (t 2) x)), (14, (mul (t 7) (t 13))), (18, (mul
    (t 12) (t 12))), (19, (mul (t 7) x)), (23, (mul (t 18) (t 12))), (27, (mul (t 18) (t 18))), (31, (mul (t 27) (t
    12))), (34, (mul (t 27) (t 18))), (37, (mul (t 27) (t 23))), (40, (mul (t 27) (t 27))), (48, (mul (t 7) (t 2)))],
    (sub (div (mul (mul (div (t 1) (t 4)) (add (add (add (add (add (add (add (add (mul (mul (num
    286996798814155702272000) (t 9)) x) (mul (mul (mul (num 9757891159681293877248000) (t 12)) (t 8)) (t 14))) (mul
    (mul (mul (num 85381547647211321425920000) (t 18)) (t 8)) (t 19))) (mul (mul (mul (num
    277490029853436794634240000) (t 23)) (t 8)) (t 13))) (mul (mul (mul (num 381548791048475592622080000) (t 27)) (t
    8)) x)) (mul (mul (num 228929274629085355573248000) (t 31)) (t 14))) (mul (mul (num 57232318657271338893312000) (t
    34)) (t 19))) (mul (mul (num 5110028451542083829760000) (t 13)) (t 37))) (mul (mul (num 106458926073793413120000)
    (t 40)) x))) x) (num 191331199209437134848000)) (div (mul (mul (t 1) (t 4)) (add (add (add (add (add (add (add
    (add (mul (num 24394727899203234693120000) (t 9)) (mul (mul (mul (num 487894557984064693862400000) (t 12)) (t 8))
    (t 48))) (mul (mul (mul (num 2774900298534367946342400000) (t 18)) (t 8)) (t 7))) (mul (mul (mul (num
    6104780656775609481953280000) (t 23)) (t 8)) (t 2))) (mul (mul (num 5723231865727133889331200000) (t 27)) (t 8)))
    (mul (mul (num 2289292746290853555732480000) (t 31)) (t 48))) (mul (mul (num 357701991607945868083200000) (t 34))
    (t 7))) (mul (mul (num 17033428171806946099200000) (t 37)) (t 2))) (mul (num 106458926073793413120000) (t 40))))
    (num 191331199209437134848000)))⟩

/-- `P_18_2` (ass_leg_function.cc:10084-10122). -/
def P_18_2 : Prog :=
⟨[(1, (sqrt (num 3230))), (2, (mul x x)), (3, (sub (num 1) (t 2))), (5, (mul (t 2) (t 2))), (6, (mul (t 5) (t 5))),
    (7, (mul (t 6) (t 6))), (9, (neg (t 3))), (10, (mul (t 5) (t 2))), (14, (mul (t 9) (t 9))), (18, (mul (t 14) (t
    9))), (22, (mul (t 14) (t 14))), (34, (mul (t 22) (t 22)))], (div (mul (mul (t 1) (t 3)) (add (add (add (add (add
    (add (add (add (mul (num 24394727899203234693120000) (t 7)) (mul (mul (mul (num 487894557984064693862400000) (t
    9)) (t 6)) (t 10))) (mul (mul (mul (num 2774900298534367946342400000) (t 14)) (t 6)) (t 5))) (mul (mul (mul (num
    6104780656775609481953280000) (t 18)) (t 6)) (t 2))) (mul (mul (num 5723231865727133889331200000) (t 22)) (t 6)))
    (mul (mul (mul (num 2289292746290853555732480000) (t 22)) (t 9)) (t 10))) (mul (mul (mul (num
    357701991607945868083200000) (t 22)) (t 14)) (t 5))) (mul (mul (mul (num 17033428171806946099200000) (t 22)) (t
    18)) (t 2))) (mul (num 106458926073793413120000) (t 34)))) (num 32526303865604312924160000))⟩

/-- `P_18_2_Deriv` (ass_leg_function.cc:10126-10184). -/
def P_18_2_Deriv : Prog :=
⟨[(1, (sqrt (num 3230))), (3, (mul x x)), (4, (mul (t 3) (t 3))), (5, (mul (t 4) (t 4))), (6, (mul (t 5) (t 5))), (8,
    (sub (t 3) (num 1))), (9, (mul (t 4) (t 3))), (13, (mul (t 8) (t 8))), (17, (mul (t 13) (t 8))), (21, (mul (t 13)
    (t 13))), (24, (mul (t 21) (t 8))), (27, (mul (t 21) (t 13))), (30, (mul (t 21) (t 17))), (33, (mul (t 21) (t
    21))), (40, (mul (t 3) x)), (41, (mul (t 4) (t 40))), (44, (mul (t 4) x))], (sub (div (mul (mul (neg (t 1)) x)
    (add (add (add (add (add (add (add (add (mul (num 24394727899203234693120000) (t 6)) (mul (mul (mul (num
    487894557984064693862400000) (t 8)) (t 5)) (t 9))) (mul (mul (mul (num 2774900298534367946342400000) (t 13)) (t
    5)) (t 4))) (mul (mul (mul (num 6104780656775609481953280000) (t 17)) (t 5)) (t 3))) (mul (mul (num
    5723231865727133889331200000) (t 21)) (t 5))) (mul (mul (num 2289292746290853555732480000) (t 24)) (t 9))) (mul
    (mul (num 357701991607945868083200000) (t 27)) (t 4))) (mul (mul (num 17033428171806946099200000) (t 30)) (t 3)))
    (mul (num 106458926073793413120000) (t 33)))) (num 16263151932802156462080000)) (div (mul (mul (t 1) (t 8)) (add
    (add (add (add (add (add (add (mul (mul (num 1366104762355381142814720000) (t 5)) (t 41)) (mul (mul (mul (num
    17930125005914377499443200000) (t 8)) (t 5)) (t 44))) (mul (mul (mul (num 69927487523066072247828480000) (t 13))
    (t 5)) (t 40))) (mul (mul (mul (num 106833661493573165934182400000) (t 17)) (t 5)) x)) (mul (mul (num
    68678782388725606671974400000) (t 21)) (t 41))) (mul (mul (num 18028180377040471751393280000) (t 24)) (t 44)))
    (mul (mul (num 1669275960837080717721600000) (t 27)) (t 40))) (mul (mul (num 35770199160794586808320000) (t 30))
    x))) (num 32526303865604312924160000)))⟩

/-- `P_18_3` (ass_leg_function.cc:10188-10227). -/
def P_18_3 : Prog :=
⟨[(1, (sqrt (num 67830))), (2, (mul x x)), (3, (sub (num 1) (t 2))), (4, (sqrt (t 3))), (7, (mul (t 2) x)), (8, (mul
    (t 2) (t 2))), (9, (mul (t 8) (t 7))), (10, (mul (t 8) (t 8))), (13, (neg (t 3))), (14, (mul (t 8) x)), (18, (mul
    (t 13) (t 13))), (22, (mul (t 18) (t 13))), (26, (mul (t 18) (t 18)))], (div (mul (mul (mul (neg (t 1)) (t 4)) (t
    3)) (add (add (add (add (add (add (add (mul (mul (num 1366104762355381142814720000) (t 10)) (t 9)) (mul (mul (mul
    (num 17930125005914377499443200000) (t 13)) (t 10)) (t 14))) (mul (mul (mul (num 69927487523066072247828480000) (t
    18)) (t 10)) (t 7))) (mul (mul (mul (num 106833661493573165934182400000) (t 22)) (t 10)) x)) (mul (mul (num
    68678782388725606671974400000) (t 26)) (t 9))) (mul (mul (mul (num 18028180377040471751393280000) (t 26)) (t 13))
    (t 14))) (mul (mul (mul (num 1669275960837080717721600000) (t 26)) (t 18)) (t 7))) (mul (mul (mul (num
    35770199160794586808320000) (t 26)) (t 22)) x))) (num 2732209524710762285629440000))⟩

/-- `P_18_3_Deriv` (ass_leg_function.cc:10231-10288). -/
def P_18_3_Deriv : Prog :=
⟨[(1, (sqrt (num 67830))), (2, (mul x x)), (3, (sub (num 1) (t 2))), (4, (sqrt (t 3))), (6, (mul (t 2) x)), (7, (mul
    (t 2) (t 2))), (8, (mul (t 7) (t 6))), (9, (mul (t 7) (t 7))), (12, (neg (t 3))), (13, (mul (t 7) x)), (17, (mul
    (t 12) (t 12))), (21, (mul (t 17) (t 12))), (25, (mul (t 17) (t 17))), (28, (mul (t 25) (t 12))), (31, (mul (t 25)
    (t 17))), (34, (mul (t 21) (t 25))), (43, (mul (t 7) (t 2)))], (sub (div (mul (mul (mul (t 1) (t 4)) (add (add
    (add (add (add (add (add (mul (mul (num 1366104762355381142814720000) (t 9)) (t 8)) (mul (mul (mul (num
    17930125005914377499443200000) (t 12)) (t 9)) (t 13))) (mul (mul (mul (num 69927487523066072247828480000) (t 17))
    (t 9)) (t 6))) (mul (mul (mul (num 106833661493573165934182400000) (t 21)) (t 9)) x)) (mul (mul (num
    68678782388725606671974400000) (t 25)) (t 8))) (mul (mul (num 18028180377040471751393280000) (t 28)) (t 13))) (mul
    (mul (num 1669275960837080717721600000) (t 31)) (t 6))) (mul (mul (num 35770199160794586808320000) (t 34)) x))) x)
    (num 910736508236920761876480000)) (div (mul (mul (mul (t 1) (t 4)) (t 3)) (add (add (add (add (add (add (add (mul
    (mul (num 56351821447159472141107200000) (t 9)) (t 43)) (mul (mul (mul (num 512801575169151196484075520000) (t
    12)) (t 9)) (t 7))) (mul (mul (mul (num 1410204331715165790331207680000) (t 17)) (t 9)) (t 2))) (mul (mul (num
    1510933212551963346783436800000) (t 21)) (t 9))) (mul (mul (num 661033280491483964217753600000) (t 25)) (t 43)))
    (mul (mul (num 110172213415247327369625600000) (t 28)) (t 7))) (mul (mul (num 5508610670762366368481280000) (t
    31)) (t 2))) (mul (num 35770199160794586808320000) (t 34)))) (num 2732209524710762285629440000)))⟩

/-- `P_18_4` (ass_leg_function.cc:10292-10327). -/
def P_18_4 : Prog :=
⟨[(1, (sqrt (num 24871))), (2, (mul x x)), (3, (sub (num 1) (t 2))), (4, (mul (t 3) (t 3))), (6, (mul (t 2) (t 2))),
    (7, (mul (t 6) (t 2))), (8, (mul (t 6) (t 6))), (11, (neg (t 3))), (15, (mul (t 11) (t 11))), (19, (mul (t 15) (t
    11))), (22, (mul (t 15) (t 15)))], (div (mul (mul (t 1) (t 4)) (add (add (add (add (add (add (add (mul (mul (num
    56351821447159472141107200000) (t 8)) (t 7)) (mul (mul (mul (num 512801575169151196484075520000) (t 11)) (t 8)) (t
    6))) (mul (mul (mul (num 1410204331715165790331207680000) (t 15)) (t 8)) (t 2))) (mul (mul (num
    1510933212551963346783436800000) (t 19)) (t 8))) (mul (mul (num 661033280491483964217753600000) (t 22)) (t 7)))
    (mul (mul (mul (num 110172213415247327369625600000) (t 22)) (t 11)) (t 6))) (mul (mul (mul (num
    5508610670762366368481280000) (t 22)) (t 15)) (t 2))) (mul (mul (num 35770199160794586808320000) (t 22)) (t 19))))
    (num 30054304771818385141923840000))⟩

/-- `P_18_4_Deriv` (ass_leg_function.cc:10331-10383). -/
def P_18_4_Deriv : Prog :=
⟨[(1, (sqrt (num 24871))), (2, (mul x x)), (3, (sub (num 1) (t 2))), (5, (mul (t 2) (t 2))), (6, (mul (t 5) (t 2))),
    (7, (mul (t 5) (t 5))), (10, (neg (t 3))), (14, (mul (t 10) (t 10))), (18, (mul (t 14) (t 10))), (21, (mul (t 14)
    (t 14))), (24, (mul (t 21) (t 10))), (27, (mul (t 21) (t 14))), (36, (mul (t 3) (t 3))), (38, (mul (t 5) x)), (41,
    (mul (t 2) x))], (add (div (mul (mul (mul (neg (t 1)) (t 3)) (add (add (add (add (add (add (add (mul (mul (num
    56351821447159472141107200000) (t 7)) (t 6)) (mul (mul (mul (num 512801575169151196484075520000) (t 10)) (t 7)) (t
    5))) (mul (mul (mul (num 1410204331715165790331207680000) (t 14)) (t 7)) (t 2))) (mul (mul (num
    1510933212551963346783436800000) (t 18)) (t 7))) (mul (mul (num 661033280491483964217753600000) (t 21)) (t 6)))
    (mul (mul (num 110172213415247327369625600000) (t 24)) (t 5))) (mul (mul (num 5508610670762366368481280000) (t
    27)) (t 2))) (mul (mul (num 35770199160794586808320000) (t 21)) (t 18)))) x) (num 7513576192954596285480960000))
    (div (mul (mul (t 1) (t 36)) (add (add (add (add (add (add (mul (mul (num 1814528650598535002943651840000) (t 7))
    (t 38)) (mul (mul (mul (num 11794436228890477519133736960000) (t 10)) (t 7)) (t 41))) (mul (mul (mul (num
    23167642592463437984012697600000) (t 14)) (t 7)) x)) (mul (mul (mul (num 17375731944347578488009523200000) (t 18))
    (t 5)) (t 41))) (mul (mul (num 5067921817101377059002777600000) (t 21)) (t 38))) (mul (mul (num
    506792181710137705900277760000) (t 24)) (t 41))) (mul (mul (num 11518004129775856952279040000) (t 27)) x))) (num
    30054304771818385141923840000)))⟩

/-- `P_18_5` (ass_leg_function.cc:10387-10423). -/
def P_18_5 : Prog :=
⟨[(1, (sqrt (num 163438))), (2, (mul x x)), (3, (sub (num 1) (t 2))), (4, (mul (t 3) (t 3))), (5, (sqrt (t 3))), (8,
    (mul (t 2) (t 2))), (9, (mul (t 8) x)), (10, (mul (t 8) (t 8))), (13, (neg (t 3))), (14, (mul (t 2) x)), (18, (mul
    (t 13) (t 13))), (26, (mul (t 18) (t 18)))], (div (mul (mul (mul (neg (t 1)) (t 5)) (t 4)) (add (add (add (add
    (add (add (mul (mul (num 1814528650598535002943651840000) (t 10)) (t 9)) (mul (mul (mul (num
    11794436228890477519133736960000) (t 13)) (t 10)) (t 14))) (mul (mul (mul (num 23167642592463437984012697600000)
    (t 18)) (t 10)) x)) (mul (mul (mul (mul (num 17375731944347578488009523200000) (t 18)) (t 13)) (t 8)) (t 14)))
    (mul (mul (num 5067921817101377059002777600000) (t 26)) (t 9))) (mul (mul (mul (num
    506792181710137705900277760000) (t 26)) (t 13)) (t 14))) (mul (mul (mul (num 11518004129775856952279040000) (t
    26)) (t 18)) x))) (num 1382498019503645716528496640000))⟩

/-- `P_18_5_Deriv` (ass_leg_function.cc:10427-10478). -/
def P_18_5_Deriv : Prog :=
⟨[(1, (sqrt (num 163438))), (2, (mul x x)), (3, (sub (num 1) (t 2))), (4, (sqrt (t 3))), (7, (mul (t 2) (t 2))), (8,
    (mul (t 7) x)), (9, (mul (t 7) (t 7))), (12, (neg (t 3))), (13, (mul (t 2) x)), (17, (mul (t 12) (t 12))), (21,
    (mul (t 17) (t 12))), (25, (mul (t 17) (t 17))), (28, (mul (t 25) (t 12))), (31, (mul (t 25) (t 17))), (38, (mul
    (t 3) (t 3)))], (sub (div (mul (mul (mul (mul (t 1) (t 4)) (t 3)) (add (add (add (add (add (add (mul (mul (num
    1814528650598535002943651840000) (t 9)) (t 8)) (mul (mul (mul (num 11794436228890477519133736960000) (t 12)) (t
    9)) (t 13))) (mul (mul (mul (num 23167642592463437984012697600000) (t 17)) (t 9)) x)) (mul (mul (mul (num
    17375731944347578488009523200000) (t 21)) (t 7)) (t 13))) (mul (mul (num 5067921817101377059002777600000) (t 25))
    (t 8))) (mul (mul (num 506792181710137705900277760000) (t 28)) (t 13))) (mul (mul (num
    11518004129775856952279040000) (t 31)) x))) x) (num 276499603900729143305699328000)) (div (mul (mul (mul (t 1) (t
    4)) (t 38)) (add (add (add (add (add (add (mul (mul (num 47177744915561910076534947840000) (t 9)) (t 7)) (mul (mul
    (mul (num 222409368887649004646521896960000) (t 12)) (t 9)) (t 2))) (mul (mul (num
    312763174998256412784171417600000) (t 17)) (t 9))) (mul (mul (mul (num 162173498147244065888088883200000) (t 21))
    (t 7)) (t 2))) (mul (mul (num 30407530902608262354016665600000) (t 25)) (t 7))) (mul (mul (num
    1658592594687723401128181760000) (t 28)) (t 2))) (mul (num 11518004129775856952279040000) (t 31)))) (num
    1382498019503645716528496640000)))⟩

/-- `P_18_6` (ass_leg_function.cc:10482-10512). -/
def P_18_6 : Prog :=
⟨[(1, (sqrt (num 3187041))), (2, (mul x x)), (3, (sub (num 1) (t 2))), (4, (mul (t 3) (t 3))), (7, (mul (t 2) (t 2))),
    (8, (mul (t 7) (t 7))), (11, (neg (t 3))), (15, (mul (t 11) (t 11))), (22, (mul (t 15) (t 15)))], (div (mul (mul
    (mul (t 1) (t 4)) (t 3)) (add (add (add (add (add (add (mul (mul (num 47177744915561910076534947840000) (t 8)) (t
    7)) (mul (mul (mul (num 222409368887649004646521896960000) (t 11)) (t 8)) (t 2))) (mul (mul (num
    312763174998256412784171417600000) (t 15)) (t 8))) (mul (mul (mul (mul (num 162173498147244065888088883200000) (t
    15)) (t 11)) (t 7)) (t 2))) (mul (mul (num 30407530902608262354016665600000) (t 22)) (t 7))) (mul (mul (mul (num
    1658592594687723401128181760000) (t 22)) (t 11)) (t 2))) (mul (mul (num 11518004129775856952279040000) (t 22)) (t
    15)))) (num 107834845521284365889222737920000))⟩

/-- `P_18_6_Deriv` (ass_leg_function.cc:10516-10560). -/
def P_18_6_Deriv : Prog :=
⟨[(1, (sqrt (num 3187041))), (2, (mul x x)), (3, (sub (num 1) (t 2))), (4, (mul (t 3) (t 3))), (6, (mul (t 2) (t 2))),
    (7, (mul (t 6) (t 6))), (10, (neg (t 3))), (14, (mul (t 10) (t 10))), (17, (mul (t 14) (t 10))), (21, (mul (t 14)
    (t 14))), (24, (mul (t 21) (t 10))), (35, (mul (t 2) x))], (add (div (mul (mul (mul (neg (t 1)) (t 4)) (add (add
    (add (add (add (add (mul (mul (num 47177744915561910076534947840000) (t 7)) (t 6)) (mul (mul (mul (num
    222409368887649004646521896960000) (t 10)) (t 7)) (t 2))) (mul (mul (num 312763174998256412784171417600000) (t
    14)) (t 7))) (mul (mul (mul (num 162173498147244065888088883200000) (t 17)) (t 6)) (t 2))) (mul (mul (num
    30407530902608262354016665600000) (t 21)) (t 6))) (mul (mul (num 1658592594687723401128181760000) (t 24)) (t 2)))
    (mul (mul (num 11518004129775856952279040000) (t 21)) (t 14)))) x) (num 17972474253547394314870456320000)) (div
    (mul (mul (mul (t 1) (t 4)) (t 3)) (add (add (add (add (add (mul (mul (num 1010951676762040930211463168000000) (t
    7)) (t 35)) (mul (mul (mul (num 3475146388869515697601904640000000) (t 10)) (t 7)) x)) (mul (mul (mul (num
    3475146388869515697601904640000000) (t 14)) (t 6)) (t 35))) (mul (mul (mul (num
    1216301236104330494160666624000000) (t 17)) (t 6)) x)) (mul (mul (num 138216049557310283427348480000000) (t 21))
    (t 35))) (mul (mul (num 3455401238932757085683712000000) (t 24)) x))) (num 107834845521284365889222737920000)))⟩

/-- `P_18_7` (ass_leg_function.cc:10564-10597). -/
def P_18_7 : Prog :=
⟨[(1, (sqrt (num 1062347))), (2, (mul x x)), (3, (sub (num 1) (t 2))), (4, (mul (t 3) (t 3))), (6, (sqrt (t 3))), (9,
    (mul (t 2) x)), (10, (mul (t 2) (t 2))), (11, (mul (t 10) (t 10))), (14, (neg (t 3))), (18, (mul (t 14) (t 14))),
    (26, (mul (t 18) (t 18)))], (div (mul (mul (mul (mul (neg (t 1)) (t 6)) (t 4)) (t 3)) (add (add (add (add (add
    (mul (mul (num 1010951676762040930211463168000000) (t 11)) (t 9)) (mul (mul (mul (num
    3475146388869515697601904640000000) (t 14)) (t 11)) x)) (mul (mul (mul (num 3475146388869515697601904640000000) (t
    18)) (t 10)) (t 9))) (mul (mul (mul (mul (num 1216301236104330494160666624000000) (t 18)) (t 14)) (t 10)) x)) (mul
    (mul (num 138216049557310283427348480000000) (t 26)) (t 9))) (mul (mul (mul (num 3455401238932757085683712000000)
    (t 26)) (t 14)) x))) (num 1078348455212843658892227379200000))⟩

/-- `P_18_7_Deriv` (ass_leg_function.cc:10601-10646). -/
def P_18_7_Deriv : Prog :=
⟨[(1, (sqrt (num 1062347))), (2, (mul x x)), (3, (sub (num 1) (t 2))), (4, (mul (t 3) (t 3))), (5, (sqrt (t 3))), (8,
    (mul (t 2) x)), (9, (mul (t 2) (t 2))), (10, (mul (t 9) (t 9))), (13, (neg (t 3))), (17, (mul (t 13) (t 13))),
    (21, (mul (t 17) (t 13))), (25, (mul (t 17) (t 17))), (28, (mul (t 25) (t 13)))], (sub (div (mul (mul (mul (mul (t
    1) (t 5)) (t 4)) (add (add (add (add (add (mul (mul (num 1010951676762040930211463168000000) (t 10)) (t 8)) (mul
    (mul (mul (num 3475146388869515697601904640000000) (t 13)) (t 10)) x)) (mul (mul (mul (num
    3475146388869515697601904640000000) (t 17)) (t 9)) (t 8))) (mul (mul (mul (num 1216301236104330494160666624000000)
    (t 21)) (t 9)) x)) (mul (mul (num 138216049557310283427348480000000) (t 25)) (t 8))) (mul (mul (num
    3455401238932757085683712000000) (t 28)) x))) x) (num 154049779316120522698889625600000)) (div (mul (mul (mul (mul
    (t 1) (t 5)) (t 4)) (t 3)) (add (add (add (add (add (mul (mul (num 18070761222121481627529904128000000) (t 10)) (t
    2)) (mul (mul (num 45176903055303704068824760320000000) (t 13)) (t 10))) (mul (mul (mul (num
    31623832138712592848177332224000000) (t 17)) (t 9)) (t 2))) (mul (mul (num 7187234576980134738222120960000000) (t
    21)) (t 9))) (mul (mul (num 449202161061258421138882560000000) (t 25)) (t 2))) (mul (num
    3455401238932757085683712000000) (t 28)))) (num 1078348455212843658892227379200000)))⟩

/-- `P_18_8` (ass_leg_function.cc:10650-10681). -/
def P_18_8 : Prog :=
⟨[(1, (sqrt (num 14858))), (2, (mul x x)), (3, (sub (num 1) (t 2))), (4, (mul (t 3) (t 3))), (5, (mul (t 4) (t 4))),
    (7, (mul (t 2) (t 2))), (8, (mul (t 7) (t 7))), (11, (neg (t 3))), (14, (mul (t 11) (t 11))), (21, (mul (t 14) (t
    14)))], (div (mul (mul (t 1) (t 5)) (add (add (add (add (add (mul (mul (num 18070761222121481627529904128000000)
    (t 8)) (t 2)) (mul (mul (num 45176903055303704068824760320000000) (t 11)) (t 8))) (mul (mul (mul (num
    31623832138712592848177332224000000) (t 14)) (t 7)) (t 2))) (mul (mul (mul (num
    7187234576980134738222120960000000) (t 14)) (t 11)) (t 7))) (mul (mul (num 449202161061258421138882560000000) (t
    21)) (t 2))) (mul (mul (num 3455401238932757085683712000000) (t 21)) (t 11)))) (num
    2156696910425687317784454758400000))⟩

/-- `P_18_8_Deriv` (ass_leg_function.cc:10685-10727). -/
def P_18_8_Deriv : Prog :=
⟨[(1, (sqrt (num 14858))), (2, (mul x x)), (3, (sub (num 1) (t 2))), (4, (mul (t 3) (t 3))), (7, (mul (t 2) (t 2))),
    (8, (mul (t 7) (t 7))), (11, (neg (t 3))), (14, (mul (t 11) (t 11))), (18, (mul (t 14) (t 11))), (21, (mul (t 14)
    (t 14))), (30, (mul (t 4) (t 4))), (34, (mul (t 2) x))], (add (div (mul (mul (mul (mul (neg (t 1)) (t 4)) (t 3))
    (add (add (add (add (add (mul (mul (num 18070761222121481627529904128000000) (t 8)) (t 2)) (mul (mul (num
    45176903055303704068824760320000000) (t 11)) (t 8))) (mul (mul (mul (num 31623832138712592848177332224000000) (t
    14)) (t 7)) (t 2))) (mul (mul (num 7187234576980134738222120960000000) (t 7)) (t 18))) (mul (mul (num
    449202161061258421138882560000000) (t 21)) (t 2))) (mul (mul (num 3455401238932757085683712000000) (t 11)) (t
    21)))) x) (num 269587113803210914723056844800000)) (div (mul (mul (t 1) (t 30)) (add (add (add (add (mul (mul (num
    271061418331822224412948561920000000) (t 8)) x) (mul (mul (mul (num 487910552997280003943307411456000000) (t 11))
    (t 7)) (t 34))) (mul (mul (mul (num 232866400294156365518396719104000000) (t 14)) (t 7)) x)) (mul (mul (num
    32342555596410606321999544320000000) (t 18)) (t 34))) (mul (mul (num 932958334511844413134602240000000) (t 21))
    x))) (num 2156696910425687317784454758400000)))⟩

/-- `P_18_9` (ass_leg_function.cc:10731-10765). -/
def P_18_9 : Prog :=
⟨[(1, (sqrt (num 111435))), (2, (mul x x)), (3, (sub (num 1) (t 2))), (4, (mul (t 3) (t 3))), (5, (mul (t 4) (t 4))),
    (6, (sqrt (t 3))), (9, (mul (t 2) (t 2))), (10, (mul (t 9) (t 9))), (13, (neg (t 3))), (14, (mul (t 2) x)), (18,
    (mul (t 13) (t 13))), (25, (mul (t 18) (t 18)))], (div (mul (mul (mul (neg (t 1)) (t 6)) (t 5)) (add (add (add
    (add (mul (mul (num 271061418331822224412948561920000000) (t 10)) x) (mul (mul (mul (num
    487910552997280003943307411456000000) (t 13)) (t 9)) (t 14))) (mul (mul (mul (num
    232866400294156365518396719104000000) (t 18)) (t 9)) x)) (mul (mul (mul (num 32342555596410606321999544320000000)
    (t 18)) (t 13)) (t 14))) (mul (mul (num 932958334511844413134602240000000) (t 25)) x))) (num
    97051360969155929300300464128000000))⟩

/-- `P_18_9_Deriv` (ass_leg_function.cc:10769-10812). -/
def P_18_9_Deriv : Prog :=
⟨[(1, (sqrt (num 111435))), (2, (mul x x)), (3, (sub (num 1) (t 2))), (4, (mul (t 3) (t 3))), (6, (sqrt (t 3))), (9,
    (mul (t 2) (t 2))), (10, (mul (t 9) (t 9))), (13, (neg (t 3))), (14, (mul (t 2) x)), (18, (mul (t 13) (t 13))),
    (22, (mul (t 18) (t 13))), (25, (mul (t 18) (t 18))), (32, (mul (t 4) (t 4)))], (sub (div (mul (mul (mul (mul (mul
    (t 1) (t 6)) (t 4)) (t 3)) (add (add (add (add (mul (mul (num 271061418331822224412948561920000000) (t 10)) x)
    (mul (mul (mul (num 487910552997280003943307411456000000) (t 13)) (t 9)) (t 14))) (mul (mul (mul (num
    232866400294156365518396719104000000) (t 18)) (t 9)) x)) (mul (mul (num 32342555596410606321999544320000000) (t
    22)) (t 14))) (mul (mul (num 932958334511844413134602240000000) (t 25)) x))) x) (num
    10783484552128436588922273792000000)) (div (mul (mul (mul (t 1) (t 6)) (t 32)) (add (add (add (add (mul (num
    3415373870980960027603151880192000000) (t 10)) (mul (mul (mul (num 4346839472157585489676738756608000000) (t 13))
    (t 9)) (t 2))) (mul (mul (num 1358387335049245465523980861440000000) (t 18)) (t 9))) (mul (mul (num
    104491333465326574271075450880000000) (t 22)) (t 2))) (mul (num 932958334511844413134602240000000) (t 25)))) (num
    97051360969155929300300464128000000)))⟩

/-- `P_18_10` (ass_leg_function.cc:10816-10846). -/
def P_18_10 : Prog :=
⟨[(1, (sqrt (num 780045))), (2, (mul x x)), (3, (sub (num 1) (t 2))), (4, (mul (t 3) (t 3))), (5, (mul (t 4) (t 4))),
    (8, (mul (t 2) (t 2))), (9, (mul (t 8) (t 8))), (11, (neg (t 3))), (15, (mul (t 11) (t 11))), (21, (mul (t 15) (t
    15)))], (div (mul (mul (mul (t 1) (t 5)) (t 3)) (add (add (add (add (mul (num
    3415373870980960027603151880192000000) (t 9)) (mul (mul (mul (num 4346839472157585489676738756608000000) (t 11))
    (t 8)) (t 2))) (mul (mul (num 1358387335049245465523980861440000000) (t 15)) (t 8))) (mul (mul (mul (num
    104491333465326574271075450880000000) (t 15)) (t 11)) (t 2))) (mul (num 932958334511844413134602240000000) (t
    21)))) (num 4076157160704549030612619493376000000))⟩

/-- `P_18_10_Deriv` (ass_leg_function.cc:10850-10890). -/
def P_18_10_Deriv : Prog :=
⟨[(1, (sqrt (num 780045))), (2, (mul x x)), (3, (sub (num 1) (t 2))), (4, (mul (t 3) (t 3))), (5, (mul (t 4) (t 4))),
    (7, (mul (t 2) (t 2))), (8, (mul (t 7) (t 7))), (10, (neg (t 3))), (14, (mul (t 10) (t 10))), (17, (mul (t 14) (t
    10))), (20, (mul (t 14) (t 14))), (28, (mul (t 2) x))], (add (div (mul (mul (mul (neg (t 1)) (t 5)) (add (add (add
    (add (mul (num 3415373870980960027603151880192000000) (t 8)) (mul (mul (mul (num
    4346839472157585489676738756608000000) (t 10)) (t 7)) (t 2))) (mul (mul (num
    1358387335049245465523980861440000000) (t 14)) (t 7))) (mul (mul (num 104491333465326574271075450880000000) (t
    17)) (t 2))) (mul (num 932958334511844413134602240000000) (t 20)))) x) (num 407615716070454903061261949337600000))
    (div (mul (mul (mul (t 1) (t 5)) (t 3)) (add (add (add (mul (mul (num 36016669912162851200178692554752000000) (t
    7)) (t 28)) (mul (mul (mul (num 31514586173142494800156355985408000000) (t 10)) (t 7)) x)) (mul (mul (num
    6060497340988941307722376151040000000) (t 14)) (t 28))) (mul (mul (num 216446333606747903847227719680000000) (t
    17)) x))) (num 4076157160704549030612619493376000000)))⟩

/-- `P_18_11` (ass_leg_function.cc:10894-10923). -/
def P_18_11 : Prog :=
⟨[(1, (sqrt (num 45242610))), (2, (mul x x)), (3, (sub (num 1) (t 2))), (4, (mul (t 3) (t 3))), (5, (mul (t 4) (t
    4))), (7, (sqrt (t 3))), (10, (mul (t 2) x)), (11, (mul (t 2) (t 2))), (14, (neg (t 3))), (18, (mul (t 14) (t
    14)))], (div (mul (mul (mul (mul (neg (t 1)) (t 7)) (t 5)) (t 3)) (add (add (add (mul (mul (num
    36016669912162851200178692554752000000) (t 11)) (t 10)) (mul (mul (mul (num
    31514586173142494800156355985408000000) (t 14)) (t 11)) x)) (mul (mul (num 6060497340988941307722376151040000000)
    (t 18)) (t 10))) (mul (mul (mul (num 216446333606747903847227719680000000) (t 18)) (t 14)) x))) (num
    472834230641727687551063861231616000000))⟩

/-- `P_18_11_Deriv` (ass_leg_function.cc:10927-10964). -/
def P_18_11_Deriv : Prog :=
⟨[(1, (sqrt (num 45242610))), (2, (mul x x)), (3, (sub (num 1) (t 2))), (4, (mul (t 3) (t 3))), (5, (mul (t 4) (t
    4))), (6, (sqrt (t 3))), (9, (mul (t 2) x)), (10, (mul (t 2) (t 2))), (13, (neg (t 3))), (17, (mul (t 13) (t
    13))), (20, (mul (t 17) (t 13)))], (sub (div (mul (mul (mul (mul (t 1) (t 6)) (t 5)) (add (add (add (mul (mul (num
    36016669912162851200178692554752000000) (t 10)) (t 9)) (mul (mul (mul (num 31514586173142494800156355985408000000)
    (t 13)) (t 10)) x)) (mul (mul (num 6060497340988941307722376151040000000) (t 17)) (t 9))) (mul (mul (num
    216446333606747903847227719680000000) (t 20)) x))) x) (num 42984930058338880686460351021056000000)) (div (mul (mul
    (mul (mul (t 1) (t 6)) (t 5)) (t 3)) (add (add (add (mul (mul (num 315145861731424948001563559854080000000) (t
    10)) (t 2)) (mul (mul (num 181814920229668239231671284531200000000) (t 13)) (t 10))) (mul (mul (num
    19480170024607311346250494771200000000) (t 17)) (t 2))) (mul (num 216446333606747903847227719680000000) (t 20))))
    (num 472834230641727687551063861231616000000)))⟩

/-- `P_18_12` (ass_leg_function.cc:10968-10993). -/
def P_18_12 : Prog :=
⟨[(1, (sqrt (num 215441))), (2, (mul x x)), (3, (sub (num 1) (t 2))), (4, (mul (t 3) (t 3))), (5, (mul (t 4) (t 4))),
    (8, (mul (t 2) (t 2))), (11, (neg (t 3))), (14, (mul (t 11) (t 11)))], (div (mul (mul (mul (t 1) (t 5)) (t 4))
    (add (add (add (mul (mul (num 315145861731424948001563559854080000000) (t 8)) (t 2)) (mul (mul (num
    181814920229668239231671284531200000000) (t 11)) (t 8))) (mul (mul (num 19480170024607311346250494771200000000) (t
    14)) (t 2))) (mul (mul (num 216446333606747903847227719680000000) (t 14)) (t 11)))) (num
    472834230641727687551063861231616000000))⟩

/-- `P_18_12_Deriv` (ass_leg_function.cc:10997-11027). -/
def P_18_12_Deriv : Prog :=
⟨[(1, (sqrt (num 215441))), (2, (mul x x)), (3, (sub (num 1) (t 2))), (4, (mul (t 3) (t 3))), (5, (mul (t 4) (t 4))),
    (8, (mul (t 2) (t 2))), (11, (neg (t 3))), (14, (mul (t 11) (t 11)))], (add (div (mul (mul (mul (mul (neg (t 1))
    (t 5)) (t 3)) (add (add (add (mul (mul (num 315145861731424948001563559854080000000) (t 8)) (t 2)) (mul (mul (num
    181814920229668239231671284531200000000) (t 11)) (t 8))) (mul (mul (num 19480170024607311346250494771200000000) (t
    14)) (t 2))) (mul (mul (num 216446333606747903847227719680000000) (t 14)) (t 11)))) x) (num
    39402852553477307295921988435968000000)) (div (mul (mul (mul (t 1) (t 5)) (t 4)) (add (add (mul (mul (num
    2254505010847886166472723928186880000000) (t 8)) x) (mul (mul (mul (num 805180361017102202311687117209600000000)
    (t 11)) (t 2)) x)) (mul (mul (num 40259018050855110115584355860480000000) (t 14)) x))) (num
    472834230641727687551063861231616000000)))⟩

/-- `P_18_13` (ass_leg_function.cc:11031-11057). -/
def P_18_13 : Prog :=
⟨[(1, (sqrt (num 40072026))), (2, (mul x x)), (3, (sub (num 1) (t 2))), (4, (mul (t 3) (t 3))), (5, (mul (t 4) (t
    4))), (7, (sqrt (t 3))), (10, (mul (t 2) (t 2))), (13, (neg (t 3))), (17, (mul (t 13) (t 13)))], (div (mul (mul
    (mul (mul (neg (t 1)) (t 7)) (t 5)) (t 4)) (add (add (mul (mul (num 2254505010847886166472723928186880000000) (t
    10)) x) (mul (mul (mul (num 805180361017102202311687117209600000000) (t 13)) (t 2)) x)) (mul (mul (num
    40259018050855110115584355860480000000) (t 17)) x))) (num 87947166899361349884497878189080576000000))⟩

/-- `P_18_13_Deriv` (ass_leg_function.cc:11061-11092). -/
def P_18_13_Deriv : Prog :=
⟨[(1, (sqrt (num 40072026))), (2, (mul x x)), (3, (sub (num 1) (t 2))), (4, (mul (t 3) (t 3))), (5, (mul (t 4) (t
    4))), (7, (sqrt (t 3))), (10, (mul (t 2) (t 2))), (13, (neg (t 3))), (17, (mul (t 13) (t 13)))], (sub (div (mul
    (mul (mul (mul (mul (t 1) (t 7)) (t 5)) (t 3)) (add (add (mul (mul (num 2254505010847886166472723928186880000000)
    (t 10)) x) (mul (mul (mul (num 805180361017102202311687117209600000000) (t 13)) (t 2)) x)) (mul (mul (num
    40259018050855110115584355860480000000) (t 17)) x))) x) (num 6765166684566257683422913706852352000000)) (div (mul
    (mul (mul (mul (t 1) (t 7)) (t 5)) (t 4)) (add (add (mul (num 12882885776273635236986993875353600000000) (t 10))
    (mul (mul (num 2576577155254727047397398775070720000000) (t 13)) (t 2))) (mul (num
    40259018050855110115584355860480000000) (t 17)))) (num 87947166899361349884497878189080576000000)))⟩

/-- `P_18_14` (ass_leg_function.cc:11096-11120). -/
def P_18_14 : Prog :=
⟨[(1, (sqrt (num 100180065))), (2, (mul x x)), (3, (sub (num 1) (t 2))), (4, (mul (t 3) (t 3))), (6, (mul (t 4) (t
    4))), (9, (mul (t 2) (t 2))), (11, (neg (t 3))), (14, (mul (t 11) (t 11)))], (div (mul (mul (mul (mul (t 1) (t 6))
    (t 4)) (t 3)) (add (add (mul (num 12882885776273635236986993875353600000000) (t 9)) (mul (mul (num
    2576577155254727047397398775070720000000) (t 11)) (t 2))) (mul (num 40259018050855110115584355860480000000) (t
    14)))) (num 1758943337987226997689957563781611520000000))⟩

/-- `P_18_14_Deriv` (ass_leg_function.cc:11124-11152). -/
def P_18_14_Deriv : Prog :=
⟨[(1, (sqrt (num 100180065))), (2, (mul x x)), (3, (sub (num 1) (t 2))), (4, (mul (t 3) (t 3))), (5, (mul (t 4) (t
    4))), (8, (mul (t 2) (t 2))), (10, (neg (t 3))), (13, (mul (t 10) (t 10)))], (add (div (mul (mul (mul (mul (neg (t
    1)) (t 5)) (t 4)) (add (add (mul (num 12882885776273635236986993875353600000000) (t 8)) (mul (mul (num
    2576577155254727047397398775070720000000) (t 10)) (t 2))) (mul (num 40259018050855110115584355860480000000) (t
    13)))) x) (num 125638809856230499834996968841543680000000)) (div (mul (mul (mul (mul (t 1) (t 5)) (t 4)) (t 3))
    (add (mul (mul (num 56684697415603995042742773051555840000000) (t 2)) x) (mul (mul (num
    5314190382712874535257134973583360000000) (t 10)) x))) (num 1758943337987226997689957563781611520000000)))⟩

/-- `P_18_15` (ass_leg_function.cc:11156-11175). -/
def P_18_15 : Prog :=
⟨[(1, (sqrt (num 367326905))), (2, (mul x x)), (3, (sub (num 1) (t 2))), (4, (mul (t 3) (t 3))), (6, (mul (t 4) (t
    4))), (8, (sqrt (t 3)))], (div (mul (mul (mul (mul (mul (neg (t 1)) (t 8)) (t 6)) (t 4)) (t 3)) (sub (mul (mul
    (num 56684697415603995042742773051555840000000) (t 2)) x) (mul (mul (num 5314190382712874535257134973583360000000)
    (t 3)) x))) (num 38696753435718993949179066403195453440000000))⟩

/-- `P_18_15_Deriv` (ass_leg_function.cc:11179-11202). -/
def P_18_15_Deriv : Prog :=
⟨[(1, (sqrt (num 367326905))), (2, (mul x x)), (3, (sub (num 1) (t 2))), (4, (mul (t 3) (t 3))), (5, (mul (t 4) (t
    4))), (7, (sqrt (t 3)))], (sub (div (mul (mul (mul (mul (mul (t 1) (t 7)) (t 5)) (t 4)) (sub (mul (mul (num
    56684697415603995042742773051555840000000) (t 2)) x) (mul (mul (num 5314190382712874535257134973583360000000) (t
    3)) x))) x) (num 2579783562381266263278604426879696896000000)) (div (mul (mul (mul (mul (mul (t 1) (t 7)) (t 5))
    (t 4)) (t 3)) (sub (mul (num 185996663394950608733999724075417600000000) (t 2)) (num
    5314190382712874535257134973583360000000))) (num 38696753435718993949179066403195453440000000)))⟩

/-- `P_18_16` (ass_leg_function.cc:11206-11223). -/
def P_18_16 : Prog :=
⟨[(1, (sqrt (num 129644790))), (2, (mul x x)), (4, (sq (sub (num 1) (t 2)))), (5, (mul (t 4) (t 4))), (6, (mul (t 5)
    (t 5)))], (div (mul (mul (t 1) (t 6)) (sub (mul (num 185996663394950608733999724075417600000000) (t 2)) (num
    5314190382712874535257134973583360000000))) (num 232180520614313963695074398419172720640000000))⟩

/-- `P_18_16_Deriv` (ass_leg_function.cc:11227-11247). -/
def P_18_16_Deriv : Prog :=
⟨[(1, (sqrt (num 129644790))), (2, (mul x x)), (3, (sub (num 1) (t 2))), (4, (mul (t 3) (t 3))), (6, (mul (t 4) (t
    4))), (14, (mul (t 6) (t 6)))], (add (div (mul (mul (mul (mul (mul (neg (t 1)) (t 6)) (t 4)) (t 3)) (sub (mul (num
    185996663394950608733999724075417600000000) (t 2)) (num 5314190382712874535257134973583360000000))) x) (num
    14511282538394622730942149901198295040000000)) (mul (mul (mul (div (num 105) (num 65536)) (t 1)) (t 14)) x))⟩

/-- `P_18_17` (ass_leg_function.cc:11251-11269). -/
def P_18_17 : Prog :=
⟨[(1, (sqrt (num 90751353))), (2, (mul x x)), (3, (sub (num 1) (t 2))), (4, (mul (t 3) (t 3))), (5, (mul (t 4) (t
    4))), (6, (mul (t 5) (t 5))), (7, (sqrt (t 3)))], (mul (mul (mul (mul (div (neg (num 15)) (num 65536)) (t 1)) (t
    7)) (t 6)) x)⟩

/-- `P_18_17_Deriv` (ass_leg_function.cc:11273-11292). -/
def P_18_17_Deriv : Prog :=
⟨[(1, (sqrt (num 90751353))), (2, (mul x x)), (3, (sub (num 1) (t 2))), (4, (mul (t 3) (t 3))), (6, (mul (t 4) (t
    4))), (8, (sqrt (t 3))), (13, (mul (t 6) (t 6)))], (sub (mul (mul (mul (mul (mul (mul (div (num 255) (num 65536))
    (t 1)) (t 8)) (t 6)) (t 4)) (t 3)) (t 2)) (mul (mul (mul (div (num 15) (num 65536)) (t 1)) (t 8)) (t 13)))⟩

/-- `P_18_18` (ass_leg_function.cc:11296-11312). -/
def P_18_18 : Prog :=
⟨[(1, (sqrt (num 90751353))), (2, (mul x x)), (3, (sub (num 1) (t 2))), (4, (mul (t 3) (t 3))), (5, (mul (t 4) (t
    4))), (6, (mul (t 5) (t 5)))], (mul (mul (mul (div (num 5) (num 131072)) (t 1)) (t 6)) (t 3))⟩

/-- `P_18_18_Deriv` (ass_leg_function.cc:11316-11330). -/
def P_18_18_Deriv : Prog :=
⟨[(1, (sqrt (num 90751353))), (2, (mul x x)), (4, (sq (sub (num 1) (t 2)))), (5, (mul (t 4) (t 4))), (6, (mul (t 5) (t
    5)))], (mul (mul (mul (div (neg (num 45)) (num 65536)) (t 1)) (t 6)) x)⟩

/-- The functions `P_18_m`. -/
def vals18 : List Prog := [P_18_0, P_18_1, P_18_2, P_18_3, P_18_4, P_18_5, P_18_6, P_18_7, P_18_8, P_18_9, P_18_10,
    P_18_11, P_18_12, P_18_13, P_18_14, P_18_15, P_18_16, P_18_17, P_18_18]

/-- The functions `P_18_m_Deriv`. -/
def ders18 : List Prog := [P_18_0_Deriv, P_18_1_Deriv, P_18_2_Deriv, P_18_3_Deriv, P_18_4_Deriv, P_18_5_Deriv,
    P_18_6_Deriv, P_18_7_Deriv, P_18_8_Deriv, P_18_9_Deriv, P_18_10_Deriv, P_18_11_Deriv, P_18_12_Deriv,
    P_18_13_Deriv, P_18_14_Deriv, P_18_15_Deriv, P_18_16_Deriv, P_18_17_Deriv, P_18_18_Deriv]

/-- Certificates. -/
def certs18 : List (ℕ × ℕ × ℕ) := [(1, 1, 1), (38, 1, 3), (3230, 1, 6), (67830, 1, 24), (24871, 1, 720), (163438, 1,
    5040), (3187041, 1, 20160), (1062347, 1, 604800), (14858, 1, 86486400), (111435, 1, 518918400), (780045, 1,
    3113510400), (45242610, 1, 6227020800), (215441, 1, 1307674368000), (40072026, 1, 1307674368000), (100180065, 1,
    10461394944000), (367326905, 1, 62768369664000), (129644790, 1, 1067062284288000), (90751353, 1,
    10670622842880000), (90751353, 1, 64023737057280000)]

theorem row18 : checkRow 18 0 certs18 vals18 ders18 = true := by decide +kernel

end PiBem.Legendre.Table

import Verif.Legendre.Check

/-! Generated by tools/leggen.py from source/ass_leg_function.cc: the functions `P_14_m` and `P_14_m_Deriv`. -/

namespace PiBem.Legendre.Table

open Ex

/-- `P_14_0` (ass_leg_function.cc:5382-5406). -/
def P_14_0 : Prog :=
⟨[(1, (mul x x)), (2, (mul (t 1) (t 1))), (3, (mul (t 2) (t 1))), (4, (mul (t 2) (t 2))), (6, (sub (t 1) (num 1))),
    (10, (mul (t 6) (t 6))), (14, (mul (t 10) (t 6))), (17, (mul (t 10) (t 10)))], (add (add (add (add (add (add (add
    (mul (t 4) (t 3)) (mul (mul (mul (div (num 91) (num 2)) (t 6)) (t 4)) (t 2))) (mul (mul (mul (div (num 3003) (num
    8)) (t 10)) (t 4)) (t 1))) (mul (mul (div (num 15015) (num 16)) (t 14)) (t 4))) (mul (mul (div (num 105105) (num
    128)) (t 17)) (t 3))) (mul (mul (mul (div (num 63063) (num 256)) (t 17)) (t 6)) (t 2))) (mul (mul (mul (div (num
    21021) (num 1024)) (t 17)) (t 10)) (t 1))) (mul (mul (div (num 429) (num 2048)) (t 17)) (t 14)))⟩

/-- `P_14_0_Deriv` (ass_leg_function.cc:5408-5433). -/
def P_14_0_Deriv : Prog :=
⟨[(1, (mul x x)), (2, (mul (t 1) (t 1))), (3, (mul (t 2) x)), (4, (mul (t 2) (t 2))), (7, (sub (t 1) (num 1))), (8,
    (mul (t 1) x)), (12, (mul (t 7) (t 7))), (20, (mul (t 12) (t 12)))], (add (add (add (add (add (add (mul (mul (num
    105) (t 4)) (t 3)) (mul (mul (mul (div (num 4095) (num 2)) (t 7)) (t 4)) (t 8))) (mul (mul (mul (div (num 75075)
    (num 8)) (t 12)) (t 4)) x)) (mul (mul (mul (mul (div (num 225225) (num 16)) (t 12)) (t 7)) (t 2)) (t 8))) (mul
    (mul (div (num 945945) (num 128)) (t 20)) (t 3))) (mul (mul (mul (div (num 315315) (num 256)) (t 20)) (t 7)) (t
    8))) (mul (mul (mul (div (num 45045) (num 1024)) (t 20)) (t 12)) x))⟩

/-- `P_14_1` (ass_leg_function.cc:5437-5471). -/
def P_14_1 : Prog :=
⟨[(1, (sqrt (num 210))), (2, (mul x x)), (3, (sub (num 1) (t 2))), (4, (sqrt (t 3))), (6, (mul (t 2) (t 2))), (7, (mul
    (t 6) x)), (8, (mul (t 6) (t 6))), (11, (neg (t 3))), (12, (mul (t 2) x)), (16, (mul (t 11) (t 11))), (24, (mul (t
    16) (t 16)))], (div (mul (mul (neg (t 1)) (t 4)) (add (add (add (add (add (add (mul (mul (num 149974557917184000)
    (t 8)) (t 7)) (mul (mul (mul (num 2924503879385088000) (t 11)) (t 8)) (t 12))) (mul (mul (mul (num
    13403976113848320000) (t 16)) (t 8)) x)) (mul (mul (mul (mul (num 20105964170772480000) (t 16)) (t 11)) (t 6)) (t
    12))) (mul (mul (num 10555631189655552000) (t 24)) (t 7))) (mul (mul (mul (num 1759271864942592000) (t 24)) (t
    11)) (t 12))) (mul (mul (mul (num 62831138033664000) (t 24)) (t 16)) x))) (num 299949115834368000))⟩

/-- `P_14_1_Deriv` (ass_leg_function.cc:5475-5524). -/
def P_14_1_Deriv : Prog :=
⟨[(1, (sqrt (num 210))), (2, (mul x x)), (3, (sub (num 1) (t 2))), (4, (sqrt (t 3))), (7, (mul (t 2) (t 2))), (8, (mul
    (t 7) x)), (9, (mul (t 7) (t 7))), (12, (neg (t 3))), (13, (mul (t 2) x)), (17, (mul (t 12) (t 12))), (21, (mul (t
    17) (t 12))), (25, (mul (t 17) (t 17))), (28, (mul (t 25) (t 12))), (31, (mul (t 25) (t 17)))], (sub (div (mul
    (mul (div (t 1) (t 4)) (add (add (add (add (add (add (mul (mul (num 149974557917184000) (t 9)) (t 8)) (mul (mul
    (mul (num 2924503879385088000) (t 12)) (t 9)) (t 13))) (mul (mul (mul (num 13403976113848320000) (t 17)) (t 9))
    x)) (mul (mul (mul (num 20105964170772480000) (t 21)) (t 7)) (t 13))) (mul (mul (num 10555631189655552000) (t 25))
    (t 8))) (mul (mul (num 1759271864942592000) (t 28)) (t 13))) (mul (mul (num 62831138033664000) (t 31)) x))) x)
    (num 299949115834368000)) (div (mul (mul (t 1) (t 4)) (add (add (add (add (add (add (mul (mul (num
    7798677011693568000) (t 9)) (t 7)) (mul (mul (mul (num 85785447128629248000) (t 12)) (t 9)) (t 2))) (mul (mul (num
    241271570049269760000) (t 17)) (t 9))) (mul (mul (mul (num 225186798712651776000) (t 21)) (t 7)) (t 2))) (mul (mul
    (num 70370874597703680000) (t 25)) (t 7))) (mul (mul (num 6031789251231744000) (t 28)) (t 2))) (mul (num
    62831138033664000) (t 31)))) (num 299949115834368000)))⟩

/-- `P_14_2` (ass_leg_function.cc:5528-5556). -/
def P_14_2 : Prog :=
⟨[(1, (sqrt (num 2730))), (2, (mul x x)), (3, (sub (num 1) (t 2))), (5, (mul (t 2) (t 2))), (6, (mul (t 5) (t 5))),
    (9, (neg (t 3))), (13, (mul (t 9) (t 9))), (20, (mul (t 13) (t 13)))], (div (mul (mul (t 1) (t 3)) (add (add (add
    (add (add (add (mul (mul (num 7798677011693568000) (t 6)) (t 5)) (mul (mul (mul (num 85785447128629248000) (t 9))
    (t 6)) (t 2))) (mul (mul (num 241271570049269760000) (t 13)) (t 6))) (mul (mul (mul (mul (num
    225186798712651776000) (t 13)) (t 9)) (t 5)) (t 2))) (mul (mul (num 70370874597703680000) (t 20)) (t 5))) (mul
    (mul (mul (num 6031789251231744000) (t 20)) (t 9)) (t 2))) (mul (mul (num 62831138033664000) (t 20)) (t 13))))
    (num 15597354023387136000))⟩

/-- `P_14_2_Deriv` (ass_leg_function.cc:5560-5600). -/
def P_14_2_Deriv : Prog :=
⟨[(1, (sqrt (num 2730))), (3, (mul x x)), (4, (mul (t 3) (t 3))), (5, (mul (t 4) (t 4))), (8, (sub (t 3) (num 1))),
    (12, (mul (t 8) (t 8))), (15, (mul (t 12) (t 8))), (19, (mul (t 12) (t 12))), (22, (mul (t 19) (t 8))), (32, (mul
    (t 3) x))], (sub (div (mul (mul (neg (t 1)) x) (add (add (add (add (add (add (mul (mul (num 7798677011693568000)
    (t 5)) (t 4)) (mul (mul (mul (num 85785447128629248000) (t 8)) (t 5)) (t 3))) (mul (mul (num
    241271570049269760000) (t 12)) (t 5))) (mul (mul (mul (num 225186798712651776000) (t 15)) (t 4)) (t 3))) (mul (mul
    (num 70370874597703680000) (t 19)) (t 4))) (mul (mul (num 6031789251231744000) (t 22)) (t 3))) (mul (mul (num
    62831138033664000) (t 19)) (t 12)))) (num 7798677011693568000)) (div (mul (mul (t 1) (t 8)) (add (add (add (add
    (add (mul (mul (num 265155018397581312000) (t 5)) (t 32)) (mul (mul (mul (num 1822940751483371520000) (t 8)) (t
    5)) x)) (mul (mul (mul (num 3281293352670068736000) (t 12)) (t 4)) (t 32))) (mul (mul (mul (num
    1914087789057540096000) (t 15)) (t 4)) x)) (mul (mul (num 341801390903132160000) (t 19)) (t 32))) (mul (mul (num
    12817552158867456000) (t 22)) x))) (num 15597354023387136000)))⟩

/-- `P_14_3` (ass_leg_function.cc:5604-5635). -/
def P_14_3 : Prog :=
⟨[(1, (sqrt (num 15470))), (2, (mul x x)), (3, (sub (num 1) (t 2))), (4, (sqrt (t 3))), (7, (mul (t 2) x)), (8, (mul
    (t 2) (t 2))), (9, (mul (t 8) (t 8))), (12, (neg (t 3))), (16, (mul (t 12) (t 12))), (24, (mul (t 16) (t 16)))],
    (div (mul (mul (mul (neg (t 1)) (t 4)) (t 3)) (add (add (add (add (add (mul (mul (num 265155018397581312000) (t
    9)) (t 7)) (mul (mul (mul (num 1822940751483371520000) (t 12)) (t 9)) x)) (mul (mul (mul (num
    3281293352670068736000) (t 16)) (t 8)) (t 7))) (mul (mul (mul (mul (num 1914087789057540096000) (t 16)) (t 12)) (t
    8)) x)) (mul (mul (num 341801390903132160000) (t 24)) (t 7))) (mul (mul (mul (num 12817552158867456000) (t 24)) (t
    12)) x))) (num 530310036795162624000))⟩

/-- `P_14_3_Deriv` (ass_leg_function.cc:5639-5682). -/
def P_14_3_Deriv : Prog :=
⟨[(1, (sqrt (num 15470))), (2, (mul x x)), (3, (sub (num 1) (t 2))), (4, (sqrt (t 3))), (6, (mul (t 2) x)), (7, (mul
    (t 2) (t 2))), (8, (mul (t 7) (t 7))), (11, (neg (t 3))), (15, (mul (t 11) (t 11))), (19, (mul (t 15) (t 11))),
    (23, (mul (t 15) (t 15))), (26, (mul (t 23) (t 11)))], (sub (div (mul (mul (mul (t 1) (t 4)) (add (add (add (add
    (add (mul (mul (num 265155018397581312000) (t 6)) (t 8)) (mul (mul (mul (num 1822940751483371520000) (t 11)) (t
    8)) x)) (mul (mul (mul (num 3281293352670068736000) (t 15)) (t 7)) (t 6))) (mul (mul (mul (num
    1914087789057540096000) (t 19)) (t 7)) x)) (mul (mul (num 341801390903132160000) (t 23)) (t 6))) (mul (mul (num
    12817552158867456000) (t 26)) x))) x) (num 176770012265054208000)) (div (mul (mul (mul (t 1) (t 4)) (t 3)) (add
    (add (add (add (add (mul (mul (num 6562586705340137472000) (t 8)) (t 2)) (mul (mul (num 29531640174030618624000)
    (t 11)) (t 8))) (mul (mul (mul (num 34453580203035721728000) (t 15)) (t 7)) (t 2))) (mul (mul (num
    12304850072512757760000) (t 19)) (t 7))) (mul (mul (num 1153579694298071040000) (t 2)) (t 23))) (mul (num
    12817552158867456000) (t 26)))) (num 530310036795162624000)))⟩

/-- `P_14_4` (ass_leg_function.cc:5686-5715). -/
def P_14_4 : Prog :=
⟨[(1, (sqrt (num 85085))), (2, (mul x x)), (3, (sub (num 1) (t 2))), (4, (mul (t 3) (t 3))), (6, (mul (t 2) (t 2))),
    (7, (mul (t 6) (t 6))), (10, (neg (t 3))), (13, (mul (t 10) (t 10))), (20, (mul (t 13) (t 13)))], (div (mul (mul
    (t 1) (t 4)) (add (add (add (add (add (mul (mul (num 6562586705340137472000) (t 7)) (t 2)) (mul (mul (num
    29531640174030618624000) (t 10)) (t 7))) (mul (mul (mul (num 34453580203035721728000) (t 13)) (t 6)) (t 2))) (mul
    (mul (mul (num 12304850072512757760000) (t 13)) (t 10)) (t 6))) (mul (mul (num 1153579694298071040000) (t 20)) (t
    2))) (mul (mul (num 12817552158867456000) (t 20)) (t 10)))) (num 17500231214240366592000))⟩

/-- `P_14_4_Deriv` (ass_leg_function.cc:5719-5759). -/
def P_14_4_Deriv : Prog :=
⟨[(1, (sqrt (num 85085))), (2, (mul x x)), (3, (sub (num 1) (t 2))), (5, (mul (t 2) (t 2))), (6, (mul (t 5) (t 5))),
    (9, (neg (t 3))), (12, (mul (t 9) (t 9))), (16, (mul (t 12) (t 9))), (19, (mul (t 12) (t 12))), (28, (mul (t 3) (t
    3))), (32, (mul (t 2) x))], (add (div (mul (mul (mul (neg (t 1)) (t 3)) (add (add (add (add (add (mul (mul (num
    6562586705340137472000) (t 6)) (t 2)) (mul (mul (num 29531640174030618624000) (t 9)) (t 6))) (mul (mul (mul (num
    34453580203035721728000) (t 12)) (t 5)) (t 2))) (mul (mul (num 12304850072512757760000) (t 16)) (t 5))) (mul (mul
    (num 1153579694298071040000) (t 19)) (t 2))) (mul (mul (num 12817552158867456000) (t 19)) (t 9)))) x) (num
    4375057803560091648000)) (div (mul (mul (t 1) (t 28)) (add (add (add (add (mul (mul (num 124689147401462611968000)
    (t 6)) x) (mul (mul (mul (num 374067442204387835904000) (t 9)) (t 5)) (t 32))) (mul (mul (mul (num
    280550581653290876928000) (t 12)) (t 5)) x)) (mul (mul (num 58448037844435599360000) (t 16)) (t 32))) (mul (mul
    (num 2435334910184816640000) (t 19)) x))) (num 17500231214240366592000)))⟩

/-- `P_14_5` (ass_leg_function.cc:5763-5795). -/
def P_14_5 : Prog :=
⟨[(1, (sqrt (num 646646))), (2, (mul x x)), (3, (sub (num 1) (t 2))), (4, (mul (t 3) (t 3))), (5, (sqrt (t 3))), (8,
    (mul (t 2) (t 2))), (9, (mul (t 8) (t 8))), (12, (neg (t 3))), (13, (mul (t 2) x)), (17, (mul (t 12) (t 12))),
    (24, (mul (t 17) (t 17)))], (div (mul (mul (mul (neg (t 1)) (t 5)) (t 4)) (add (add (add (add (mul (mul (num
    124689147401462611968000) (t 9)) x) (mul (mul (mul (num 374067442204387835904000) (t 12)) (t 8)) (t 13))) (mul
    (mul (mul (num 280550581653290876928000) (t 17)) (t 8)) x)) (mul (mul (mul (num 58448037844435599360000) (t 17))
    (t 12)) (t 13))) (mul (mul (num 2435334910184816640000) (t 24)) x))) (num 665008786141133930496000))⟩

/-- `P_14_5_Deriv` (ass_leg_function.cc:5799-5840). -/
def P_14_5_Deriv : Prog :=
⟨[(1, (sqrt (num 646646))), (2, (mul x x)), (3, (sub (num 1) (t 2))), (4, (sqrt (t 3))), (7, (mul (t 2) (t 2))), (8,
    (mul (t 7) (t 7))), (11, (neg (t 3))), (12, (mul (t 2) x)), (16, (mul (t 11) (t 11))), (20, (mul (t 16) (t 11))),
    (23, (mul (t 16) (t 16))), (30, (mul (t 3) (t 3)))], (sub (div (mul (mul (mul (mul (t 1) (t 4)) (t 3)) (add (add
    (add (add (mul (mul (num 124689147401462611968000) (t 8)) x) (mul (mul (mul (num 374067442204387835904000) (t 11))
    (t 7)) (t 12))) (mul (mul (mul (num 280550581653290876928000) (t 16)) (t 7)) x)) (mul (mul (num
    58448037844435599360000) (t 20)) (t 12))) (mul (mul (num 2435334910184816640000) (t 23)) x))) x) (num
    133001757228226786099200)) (div (mul (mul (mul (t 1) (t 4)) (t 30)) (add (add (add (add (mul (num
    1870337211021939179520000) (t 8)) (mul (mul (mul (num 3740674422043878359040000) (t 11)) (t 7)) (t 2))) (mul (mul
    (num 1753441135333067980800000) (t 16)) (t 7))) (mul (mul (num 194826792814785331200000) (t 20)) (t 2))) (mul (num
    2435334910184816640000) (t 23)))) (num 665008786141133930496000)))⟩

/-- `P_14_6` (ass_leg_function.cc:5844-5872). -/
def P_14_6 : Prog :=
⟨[(1, (sqrt (num 3233230))), (2, (mul x x)), (3, (sub (num 1) (t 2))), (4, (mul (t 3) (t 3))), (7, (mul (t 2) (t 2))),
    (8, (mul (t 7) (t 7))), (10, (neg (t 3))), (14, (mul (t 10) (t 10))), (20, (mul (t 14) (t 14)))], (div (mul (mul
    (mul (t 1) (t 4)) (t 3)) (add (add (add (add (mul (num 1870337211021939179520000) (t 8)) (mul (mul (mul (num
    3740674422043878359040000) (t 10)) (t 7)) (t 2))) (mul (mul (num 1753441135333067980800000) (t 14)) (t 7))) (mul
    (mul (mul (num 194826792814785331200000) (t 14)) (t 10)) (t 2))) (mul (num 2435334910184816640000) (t 20)))) (num
    19950263584234017914880000))⟩

/-- `P_14_6_Deriv` (ass_leg_function.cc:5876-5914). -/
def P_14_6_Deriv : Prog :=
⟨[(1, (sqrt (num 3233230))), (2, (mul x x)), (3, (sub (num 1) (t 2))), (4, (mul (t 3) (t 3))), (6, (mul (t 2) (t 2))),
    (7, (mul (t 6) (t 6))), (9, (neg (t 3))), (13, (mul (t 9) (t 9))), (16, (mul (t 9) (t 13))), (19, (mul (t 13) (t
    13))), (27, (mul (t 2) x))], (add (div (mul (mul (mul (neg (t 1)) (t 4)) (add (add (add (add (mul (num
    1870337211021939179520000) (t 7)) (mul (mul (mul (num 3740674422043878359040000) (t 9)) (t 6)) (t 2))) (mul (mul
    (num 1753441135333067980800000) (t 13)) (t 6))) (mul (mul (num 194826792814785331200000) (t 16)) (t 2))) (mul (num
    2435334910184816640000) (t 19)))) x) (num 3325043930705669652480000)) (div (mul (mul (mul (t 1) (t 4)) (t 3)) (add
    (add (add (mul (mul (num 22444046532263270154240000) (t 27)) (t 6)) (mul (mul (mul (num
    29457811073595542077440000) (t 9)) (t 6)) x)) (mul (mul (num 8182725298220983910400000) (t 13)) (t 27))) (mul (mul
    (num 409136264911049195520000) (t 16)) x))) (num 19950263584234017914880000)))⟩

/-- `P_14_7` (ass_leg_function.cc:5918-5945). -/
def P_14_7 : Prog :=
⟨[(1, (sqrt (num 692835))), (2, (mul x x)), (3, (sub (num 1) (t 2))), (4, (mul (t 3) (t 3))), (6, (sqrt (t 3))), (9,
    (mul (t 2) x)), (10, (mul (t 2) (t 2))), (13, (neg (t 3))), (17, (mul (t 13) (t 13)))], (div (mul (mul (mul (mul
    (neg (t 1)) (t 6)) (t 4)) (t 3)) (add (add (add (mul (mul (num 22444046532263270154240000) (t 10)) (t 9)) (mul
    (mul (mul (num 29457811073595542077440000) (t 13)) (t 10)) x)) (mul (mul (num 8182725298220983910400000) (t 17))
    (t 9))) (mul (mul (mul (num 409136264911049195520000) (t 17)) (t 13)) x))) (num 119701581505404107489280000))⟩

/-- `P_14_7_Deriv` (ass_leg_function.cc:5949-5984). -/
def P_14_7_Deriv : Prog :=
⟨[(1, (sqrt (num 692835))), (2, (mul x x)), (3, (sub (num 1) (t 2))), (4, (mul (t 3) (t 3))), (5, (sqrt (t 3))), (8,
    (mul (t 2) x)), (9, (mul (t 2) (t 2))), (12, (neg (t 3))), (16, (mul (t 12) (t 12))), (19, (mul (t 16) (t 12)))],
    (sub (div (mul (mul (mul (mul (t 1) (t 5)) (t 4)) (add (add (add (mul (mul (num 22444046532263270154240000) (t 9))
    (t 8)) (mul (mul (mul (num 29457811073595542077440000) (t 12)) (t 9)) x)) (mul (mul (num
    8182725298220983910400000) (t 16)) (t 8))) (mul (mul (num 409136264911049195520000) (t 19)) x))) x) (num
    17100225929343443927040000)) (div (mul (mul (mul (mul (t 1) (t 5)) (t 4)) (t 3)) (add (add (add (mul (mul (num
    216023947873033975234560000) (t 9)) (t 2)) (mul (mul (num 180019956560861646028800000) (t 12)) (t 9))) (mul (mul
    (num 27002993484129246904320000) (t 16)) (t 2))) (mul (num 409136264911049195520000) (t 19)))) (num
    119701581505404107489280000)))⟩

/-- `P_14_8` (ass_leg_function.cc:5988-6013). -/
def P_14_8 : Prog :=
⟨[(1, (sqrt (num 881790))), (2, (mul x x)), (3, (sub (num 1) (t 2))), (4, (mul (t 3) (t 3))), (5, (mul (t 4) (t 4))),
    (7, (mul (t 2) (t 2))), (10, (neg (t 3))), (13, (mul (t 10) (t 10)))], (div (mul (mul (t 1) (t 5)) (add (add (add
    (mul (mul (num 216023947873033975234560000) (t 7)) (t 2)) (mul (mul (num 180019956560861646028800000) (t 10)) (t
    7))) (mul (mul (num 27002993484129246904320000) (t 13)) (t 2))) (mul (mul (num 409136264911049195520000) (t 13))
    (t 10)))) (num 1675822141075657504849920000))⟩

/-- `P_14_8_Deriv` (ass_leg_function.cc:6017-6047). -/
def P_14_8_Deriv : Prog :=
⟨[(1, (sqrt (num 881790))), (2, (mul x x)), (3, (sub (num 1) (t 2))), (4, (mul (t 3) (t 3))), (7, (mul (t 2) (t 2))),
    (10, (neg (t 3))), (13, (mul (t 10) (t 10))), (22, (mul (t 4) (t 4)))], (add (div (mul (mul (mul (mul (neg (t 1))
    (t 4)) (t 3)) (add (add (add (mul (mul (num 216023947873033975234560000) (t 7)) (t 2)) (mul (mul (num
    180019956560861646028800000) (t 7)) (t 10))) (mul (mul (num 27002993484129246904320000) (t 13)) (t 2))) (mul (mul
    (num 409136264911049195520000) (t 13)) (t 10)))) x) (num 209477767634457188106240000)) (div (mul (mul (t 1) (t
    22)) (add (add (mul (mul (num 1656183600359927143464960000) (t 7)) x) (mul (mul (mul (num
    828091800179963571732480000) (t 10)) (t 2)) x)) (mul (mul (num 56460804557724788981760000) (t 13)) x))) (num
    1675822141075657504849920000)))⟩

/-- `P_14_9` (ass_leg_function.cc:6051-6077). -/
def P_14_9 : Prog :=
⟨[(1, (sqrt (num 3380195))), (2, (mul x x)), (3, (sub (num 1) (t 2))), (4, (mul (t 3) (t 3))), (5, (mul (t 4) (t 4))),
    (6, (sqrt (t 3))), (9, (mul (t 2) (t 2))), (12, (neg (t 3))), (16, (mul (t 12) (t 12)))], (div (mul (mul (mul (neg
    (t 1)) (t 6)) (t 5)) (add (add (mul (mul (num 1656183600359927143464960000) (t 9)) x) (mul (mul (mul (num
    828091800179963571732480000) (t 12)) (t 2)) x)) (mul (mul (num 56460804557724788981760000) (t 16)) x))) (num
    38543909244740122611548160000))⟩

/-- `P_14_9_Deriv` (ass_leg_function.cc:6081-6112). -/
def P_14_9_Deriv : Prog :=
⟨[(1, (sqrt (num 3380195))), (2, (mul x x)), (3, (sub (num 1) (t 2))), (4, (mul (t 3) (t 3))), (6, (sqrt (t 3))), (9,
    (mul (t 2) (t 2))), (12, (neg (t 3))), (16, (mul (t 12) (t 12))), (23, (mul (t 4) (t 4)))], (sub (div (mul (mul
    (mul (mul (mul (t 1) (t 6)) (t 4)) (t 3)) (add (add (mul (mul (num 1656183600359927143464960000) (t 9)) x) (mul
    (mul (mul (num 828091800179963571732480000) (t 12)) (t 2)) x)) (mul (mul (num 56460804557724788981760000) (t 16))
    x))) x) (num 4282656582748902512394240000)) (div (mul (mul (mul (t 1) (t 6)) (t 23)) (add (add (mul (num
    9937101602159562860789760000) (t 9)) (mul (mul (num 2710118618770789871124480000) (t 12)) (t 2))) (mul (num
    56460804557724788981760000) (t 16)))) (num 38543909244740122611548160000)))⟩

/-- `P_14_10` (ass_leg_function.cc:6116-6140). -/
def P_14_10 : Prog :=
⟨[(1, (sqrt (num 4056234))), (2, (mul x x)), (3, (sub (num 1) (t 2))), (4, (mul (t 3) (t 3))), (5, (mul (t 4) (t 4))),
    (8, (mul (t 2) (t 2))), (10, (neg (t 3))), (13, (mul (t 10) (t 10)))], (div (mul (mul (mul (t 1) (t 5)) (t 3))
    (add (add (mul (num 9937101602159562860789760000) (t 8)) (mul (mul (num 2710118618770789871124480000) (t 10)) (t
    2))) (mul (num 56460804557724788981760000) (t 13)))) (num 462526910936881471338577920000))⟩

/-- `P_14_10_Deriv` (ass_leg_function.cc:6144-6172). -/
def P_14_10_Deriv : Prog :=
⟨[(1, (sqrt (num 4056234))), (2, (mul x x)), (3, (sub (num 1) (t 2))), (4, (mul (t 3) (t 3))), (5, (mul (t 4) (t 4))),
    (7, (mul (t 2) (t 2))), (9, (neg (t 3))), (12, (mul (t 9) (t 9)))], (add (div (mul (mul (mul (neg (t 1)) (t 5))
    (add (add (mul (num 9937101602159562860789760000) (t 7)) (mul (mul (num 2710118618770789871124480000) (t 9)) (t
    2))) (mul (num 56460804557724788981760000) (t 12)))) x) (num 46252691093688147133857792000)) (div (mul (mul (mul
    (t 1) (t 5)) (t 3)) (add (mul (mul (num 45168643646179831185408000000) (t 2)) x) (mul (mul (num
    5646080455772478898176000000) (t 9)) x))) (num 462526910936881471338577920000)))⟩

/-- `P_14_11` (ass_leg_function.cc:6176-6195). -/
def P_14_11 : Prog :=
⟨[(1, (sqrt (num 4056234))), (2, (mul x x)), (3, (sub (num 1) (t 2))), (4, (mul (t 3) (t 3))), (5, (mul (t 4) (t 4))),
    (7, (sqrt (t 3)))], (div (mul (mul (mul (mul (neg (t 1)) (t 7)) (t 5)) (t 3)) (sub (mul (mul (num
    45168643646179831185408000000) (t 2)) x) (mul (mul (num 5646080455772478898176000000) (t 3)) x))) (num
    4625269109368814713385779200000))⟩

/-- `P_14_11_Deriv` (ass_leg_function.cc:6199-6222). -/
def P_14_11_Deriv : Prog :=
⟨[(1, (sqrt (num 4056234))), (2, (mul x x)), (3, (sub (num 1) (t 2))), (4, (mul (t 3) (t 3))), (5, (mul (t 4) (t 4))),
    (6, (sqrt (t 3)))], (sub (div (mul (mul (mul (mul (t 1) (t 6)) (t 5)) (sub (mul (mul (num
    45168643646179831185408000000) (t 2)) x) (mul (mul (num 5646080455772478898176000000) (t 3)) x))) x) (num
    420479009942619519398707200000)) (div (mul (mul (mul (mul (t 1) (t 6)) (t 5)) (t 3)) (sub (mul (num
    152444172305856930250752000000) (t 2)) (num 5646080455772478898176000000))) (num
    4625269109368814713385779200000)))⟩

/-- `P_14_12` (ass_leg_function.cc:6226-6241). -/
def P_14_12 : Prog :=
⟨[(1, (sqrt (num 52003))), (2, (mul x x)), (4, (sq (sub (num 1) (t 2)))), (5, (mul (t 4) (t 4)))], (div (mul (mul (mul
    (t 1) (t 5)) (t 4)) (sub (mul (num 152444172305856930250752000000) (t 2)) (num 5646080455772478898176000000)))
    (num 4625269109368814713385779200000))⟩

/-- `P_14_12_Deriv` (ass_leg_function.cc:6245-6263). -/
def P_14_12_Deriv : Prog :=
⟨[(1, (sqrt (num 52003))), (2, (mul x x)), (3, (sub (num 1) (t 2))), (4, (mul (t 3) (t 3))), (5, (mul (t 4) (t 4)))],
    (add (div (mul (mul (mul (mul (neg (t 1)) (t 5)) (t 3)) (sub (mul (num 152444172305856930250752000000) (t 2)) (num
    5646080455772478898176000000))) x) (num 385439092447401226115481600000)) (mul (mul (mul (mul (div (num 135) (num
    2048)) (t 1)) (t 5)) (t 4)) x))⟩

/-- `P_14_13` (ass_leg_function.cc:6267-6283). -/
def P_14_13 : Prog :=
⟨[(1, (sqrt (num 312018))), (2, (mul x x)), (3, (sub (num 1) (t 2))), (4, (mul (t 3) (t 3))), (5, (mul (t 4) (t 4))),
    (7, (sqrt (t 3)))], (mul (mul (mul (mul (mul (div (neg (num 15)) (num 4096)) (t 1)) (t 7)) (t 5)) (t 4)) x)⟩

/-- `P_14_13_Deriv` (ass_leg_function.cc:6287-6304). -/
def P_14_13_Deriv : Prog :=
⟨[(1, (sqrt (num 312018))), (2, (mul x x)), (3, (sub (num 1) (t 2))), (4, (mul (t 3) (t 3))), (5, (mul (t 4) (t 4))),
    (7, (sqrt (t 3)))], (sub (mul (mul (mul (mul (mul (div (num 195) (num 4096)) (t 1)) (t 7)) (t 5)) (t 3)) (t 2))
    (mul (mul (mul (mul (div (num 15) (num 4096)) (t 1)) (t 7)) (t 5)) (t 4)))⟩

/-- `P_14_14` (ass_leg_function.cc:6308-6322). -/
def P_14_14 : Prog :=
⟨[(1, (sqrt (num 44574))), (2, (mul x x)), (3, (sub (num 1) (t 2))), (4, (mul (t 3) (t 3))), (6, (mul (t 4) (t 4)))],
    (mul (mul (mul (mul (div (num 15) (num 8192)) (t 1)) (t 6)) (t 4)) (t 3))⟩

/-- `P_14_14_Deriv` (ass_leg_function.cc:6326-6338). -/
def P_14_14_Deriv : Prog :=
⟨[(1, (sqrt (num 44574))), (2, (mul x x)), (4, (sq (sub (num 1) (t 2)))), (5, (mul (t 4) (t 4)))], (mul (mul (mul (mul
    (div (neg (num 105)) (num 4096)) (t 1)) (t 5)) (t 4)) x)⟩

/-- The functions `P_14_m`. -/
def vals14 : List Prog := [P_14_0, P_14_1, P_14_2, P_14_3, P_14_4, P_14_5, P_14_6, P_14_7, P_14_8, P_14_9, P_14_10,
    P_14_11, P_14_12, P_14_13, P_14_14]

/-- The functions `P_14_m_Deriv`. -/
def ders14 : List Prog := [P_14_0_Deriv, P_14_1_Deriv, P_14_2_Deriv, P_14_3_Deriv, P_14_4_Deriv, P_14_5_Deriv,
    P_14_6_Deriv, P_14_7_Deriv, P_14_8_Deriv, P_14_9_Deriv, P_14_10_Deriv, P_14_11_Deriv, P_14_12_Deriv,
    P_14_13_Deriv, P_14_14_Deriv]

/-- Certificates. -/
def certs14 : List (ℕ × ℕ × ℕ) := [(1, 1, 1), (210, 1, 1), (2730, 1, 4), (15470, 1, 24), (85085, 1, 144), (646646, 1,
    720), (3233230, 1, 4320), (692835, 1, 120960), (881790, 1, 1330560), (3380195, 1, 7983360), (4056234, 1,
    79833600), (4056234, 1, 798336000), (52003, 1, 62270208000), (312018, 1, 186810624000), (44574, 1, 2615348736000)]

theorem row14 : checkRow 14 0 certs14 vals14 ders14 = true := by decide +kernel

end PiBem.Legendre.Table

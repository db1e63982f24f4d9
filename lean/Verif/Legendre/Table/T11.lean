import Verif.Legendre.Check

/-! Generated by tools/leggen.py from source/ass_leg_function.cc: the functions `P_11_m` and `P_11_m_Deriv`. -/

namespace PiBem.Legendre.Table

open Ex

/-- `P_11_0` (ass_leg_function.cc:3114-3135). -/
def P_11_0 : Prog :=
⟨[(1, (mul x x)), (2, (mul (t 1) x)), (3, (mul (t 1) (t 1))), (4, (mul (t 3) (t 3))), (6, (sub (t 1) (num 1))), (10,
    (mul (t 6) (t 6))), (18, (mul (t 10) (t 10)))], (add (add (add (add (add (mul (t 4) (t 2)) (mul (mul (mul (div
    (num 55) (num 2)) (t 6)) (t 4)) x)) (mul (mul (mul (div (num 495) (num 4)) (t 10)) (t 3)) (t 2))) (mul (mul (mul
    (mul (div (num 1155) (num 8)) (t 10)) (t 6)) (t 3)) x)) (mul (mul (div (num 5775) (num 128)) (t 18)) (t 2))) (mul
    (mul (mul (div (num 693) (num 256)) (t 18)) (t 6)) x))⟩

/-- `P_11_0_Deriv` (ass_leg_function.cc:3137-3155). -/
def P_11_0_Deriv : Prog :=
⟨[(1, (mul x x)), (2, (mul (t 1) (t 1))), (3, (mul (t 2) (t 2))), (6, (sub (t 1) (num 1))), (9, (mul (t 6) (t 6))),
    (16, (mul (t 9) (t 9)))], (add (add (add (add (add (mul (mul (num 66) (t 3)) (t 1)) (mul (mul (div (num 1485) (num
    2)) (t 6)) (t 3))) (mul (mul (mul (div (num 3465) (num 2)) (t 9)) (t 2)) (t 1))) (mul (mul (mul (div (num 17325)
    (num 16)) (t 9)) (t 6)) (t 2))) (mul (mul (div (num 10395) (num 64)) (t 16)) (t 1))) (mul (mul (div (num 693) (num
    256)) (t 16)) (t 6)))⟩

/-- `P_11_1` (ass_leg_function.cc:3159-3186). -/
def P_11_1 : Prog :=
⟨[(1, (sqrt (num 33))), (2, (mul x x)), (3, (sub (num 1) (t 2))), (4, (sqrt (t 3))), (6, (mul (t 2) (t 2))), (7, (mul
    (t 6) (t 6))), (10, (neg (t 3))), (13, (mul (t 10) (t 10))), (20, (mul (t 13) (t 13)))], (div (mul (mul (neg (t
    1)) (t 4)) (add (add (add (add (add (mul (mul (num 5395474022400) (t 7)) (t 2)) (mul (mul (num 60699082752000) (t
    10)) (t 7))) (mul (mul (mul (num 141631193088000) (t 13)) (t 6)) (t 2))) (mul (mul (mul (num 88519495680000) (t
    13)) (t 10)) (t 6))) (mul (mul (num 13277924352000) (t 20)) (t 2))) (mul (mul (num 221298739200) (t 20)) (t 10))))
    (num 5395474022400))⟩

/-- `P_11_1_Deriv` (ass_leg_function.cc:3190-3226). -/
def P_11_1_Deriv : Prog :=
⟨[(1, (sqrt (num 33))), (2, (mul x x)), (3, (sub (num 1) (t 2))), (4, (sqrt (t 3))), (7, (mul (t 2) (t 2))), (8, (mul
    (t 7) (t 7))), (11, (neg (t 3))), (14, (mul (t 11) (t 11))), (18, (mul (t 14) (t 11))), (21, (mul (t 14) (t 14))),
    (32, (mul (t 2) x))], (sub (div (mul (mul (div (t 1) (t 4)) (add (add (add (add (add (mul (mul (num 5395474022400)
    (t 8)) (t 2)) (mul (mul (num 60699082752000) (t 11)) (t 8))) (mul (mul (mul (num 141631193088000) (t 14)) (t 7))
    (t 2))) (mul (mul (num 88519495680000) (t 18)) (t 7))) (mul (mul (num 13277924352000) (t 21)) (t 2))) (mul (mul
    (num 221298739200) (t 21)) (t 11)))) x) (num 5395474022400)) (div (mul (mul (t 1) (t 4)) (add (add (add (add (mul
    (mul (num 175352905728000) (t 8)) x) (mul (mul (mul (num 1052117434368000) (t 11)) (t 7)) (t 32))) (mul (mul (mul
    (num 1380904132608000) (t 14)) (t 7)) x)) (mul (mul (num 460301377536000) (t 18)) (t 32))) (mul (mul (num
    28768836096000) (t 21)) x))) (num 5395474022400)))⟩

/-- `P_11_2` (ass_leg_function.cc:3230-3257). -/
def P_11_2 : Prog :=
⟨[(1, (sqrt (num 4290))), (2, (mul x x)), (3, (sub (num 1) (t 2))), (5, (mul (t 2) (t 2))), (6, (mul (t 5) (t 5))),
    (9, (neg (t 3))), (10, (mul (t 2) x)), (14, (mul (t 9) (t 9))), (21, (mul (t 14) (t 14)))], (div (mul (mul (t 1)
    (t 3)) (add (add (add (add (mul (mul (num 175352905728000) (t 6)) x) (mul (mul (mul (num 1052117434368000) (t 9))
    (t 5)) (t 10))) (mul (mul (mul (num 1380904132608000) (t 14)) (t 5)) x)) (mul (mul (mul (num 460301377536000) (t
    14)) (t 9)) (t 10))) (mul (mul (num 28768836096000) (t 21)) x))) (num 701411622912000))⟩

/-- `P_11_2_Deriv` (ass_leg_function.cc:3261-3293). -/
def P_11_2_Deriv : Prog :=
⟨[(1, (sqrt (num 4290))), (3, (mul x x)), (4, (mul (t 3) (t 3))), (5, (mul (t 4) (t 4))), (8, (sub (t 3) (num 1))),
    (9, (mul (t 3) x)), (13, (mul (t 8) (t 8))), (17, (mul (t 13) (t 8))), (20, (mul (t 13) (t 13)))], (sub (div (mul
    (mul (neg (t 1)) x) (add (add (add (add (mul (mul (num 175352905728000) (t 5)) x) (mul (mul (mul (num
    1052117434368000) (t 8)) (t 4)) (t 9))) (mul (mul (mul (num 1380904132608000) (t 13)) (t 4)) x)) (mul (mul (num
    460301377536000) (t 17)) (t 9))) (mul (mul (num 28768836096000) (t 20)) x))) (num 350705811456000)) (div (mul (mul
    (t 1) (t 8)) (add (add (add (add (mul (num 3682411020288000) (t 5)) (mul (mul (mul (num 12888438571008000) (t 8))
    (t 4)) (t 3))) (mul (mul (num 9666328928256000) (t 13)) (t 4))) (mul (mul (num 1611054821376000) (t 17)) (t 3)))
    (mul (num 28768836096000) (t 20)))) (num 701411622912000)))⟩

/-- `P_11_3` (ass_leg_function.cc:3297-3323). -/
def P_11_3 : Prog :=
⟨[(1, (sqrt (num 15015))), (2, (mul x x)), (3, (sub (num 1) (t 2))), (4, (sqrt (t 3))), (7, (mul (t 2) (t 2))), (8,
    (mul (t 7) (t 7))), (10, (neg (t 3))), (14, (mul (t 10) (t 10))), (20, (mul (t 14) (t 14)))], (div (mul (mul (mul
    (neg (t 1)) (t 4)) (t 3)) (add (add (add (add (mul (num 3682411020288000) (t 8)) (mul (mul (mul (num
    12888438571008000) (t 10)) (t 7)) (t 2))) (mul (mul (num 9666328928256000) (t 14)) (t 7))) (mul (mul (mul (num
    1611054821376000) (t 14)) (t 10)) (t 2))) (mul (num 28768836096000) (t 20)))) (num 14729644081152000))⟩

/-- `P_11_3_Deriv` (ass_leg_function.cc:3327-3363). -/
def P_11_3_Deriv : Prog :=
⟨[(1, (sqrt (num 15015))), (2, (mul x x)), (3, (sub (num 1) (t 2))), (4, (sqrt (t 3))), (6, (mul (t 2) (t 2))), (7,
    (mul (t 6) (t 6))), (9, (neg (t 3))), (13, (mul (t 9) (t 9))), (16, (mul (t 13) (t 9))), (19, (mul (t 13) (t
    13))), (27, (mul (t 2) x))], (sub (div (mul (mul (mul (t 1) (t 4)) (add (add (add (add (mul (num 3682411020288000)
    (t 7)) (mul (mul (mul (num 12888438571008000) (t 9)) (t 6)) (t 2))) (mul (mul (num 9666328928256000) (t 13)) (t
    6))) (mul (mul (num 1611054821376000) (t 16)) (t 2))) (mul (num 28768836096000) (t 19)))) x) (num
    4909881360384000)) (div (mul (mul (mul (t 1) (t 4)) (t 3)) (add (add (add (mul (mul (num 55236165304320000) (t 6))
    (t 27)) (mul (mul (mul (num 115995947139072000) (t 9)) (t 6)) x)) (mul (mul (num 48331644641280000) (t 13)) (t
    27))) (mul (mul (num 3452260331520000) (t 16)) x))) (num 14729644081152000)))⟩

/-- `P_11_4` (ass_leg_function.cc:3367-3392). -/
def P_11_4 : Prog :=
⟨[(1, (sqrt (num 2002))), (2, (mul x x)), (3, (sub (num 1) (t 2))), (4, (mul (t 3) (t 3))), (6, (mul (t 2) x)), (7,
    (mul (t 2) (t 2))), (10, (neg (t 3))), (14, (mul (t 10) (t 10)))], (div (mul (mul (t 1) (t 4)) (add (add (add (mul
    (mul (num 55236165304320000) (t 7)) (t 6)) (mul (mul (mul (num 115995947139072000) (t 10)) (t 7)) x)) (mul (mul
    (num 48331644641280000) (t 14)) (t 6))) (mul (mul (mul (num 3452260331520000) (t 14)) (t 10)) x))) (num
    58918576324608000))⟩

/-- `P_11_4_Deriv` (ass_leg_function.cc:3396-3427). -/
def P_11_4_Deriv : Prog :=
⟨[(1, (sqrt (num 2002))), (2, (mul x x)), (3, (sub (num 1) (t 2))), (5, (mul (t 2) x)), (6, (mul (t 2) (t 2))), (9,
    (neg (t 3))), (13, (mul (t 9) (t 9))), (16, (mul (t 13) (t 9))), (23, (mul (t 3) (t 3)))], (add (div (mul (mul
    (mul (neg (t 1)) (t 3)) (add (add (add (mul (mul (num 55236165304320000) (t 6)) (t 5)) (mul (mul (mul (num
    115995947139072000) (t 9)) (t 6)) x)) (mul (mul (num 48331644641280000) (t 13)) (t 5))) (mul (mul (num
    3452260331520000) (t 16)) x))) x) (num 14729644081152000)) (div (mul (mul (t 1) (t 23)) (add (add (add (mul (mul
    (num 618645051408384000) (t 6)) (t 2)) (mul (mul (num 773306314260480000) (t 6)) (t 9))) (mul (mul (num
    165708495912960000) (t 13)) (t 2))) (mul (num 3452260331520000) (t 16)))) (num 58918576324608000)))⟩

/-- `P_11_5` (ass_leg_function.cc:3431-3455). -/
def P_11_5 : Prog :=
⟨[(1, (sqrt (num 286))), (2, (mul x x)), (3, (sub (num 1) (t 2))), (4, (mul (t 3) (t 3))), (5, (sqrt (t 3))), (8, (mul
    (t 2) (t 2))), (11, (neg (t 3))), (14, (mul (t 11) (t 11)))], (div (mul (mul (mul (neg (t 1)) (t 5)) (t 4)) (add
    (add (add (mul (mul (num 618645051408384000) (t 8)) (t 2)) (mul (mul (num 773306314260480000) (t 11)) (t 8))) (mul
    (mul (num 165708495912960000) (t 14)) (t 2))) (mul (mul (num 3452260331520000) (t 14)) (t 11)))) (num
    235674305298432000))⟩

/-- `P_11_5_Deriv` (ass_leg_function.cc:3459-3488). -/
def P_11_5_Deriv : Prog :=
⟨[(1, (sqrt (num 286))), (2, (mul x x)), (3, (sub (num 1) (t 2))), (4, (sqrt (t 3))), (7, (mul (t 2) (t 2))), (10,
    (neg (t 3))), (13, (mul (t 10) (t 10))), (22, (mul (t 3) (t 3)))], (sub (div (mul (mul (mul (mul (t 1) (t 4)) (t
    3)) (add (add (add (mul (mul (num 618645051408384000) (t 7)) (t 2)) (mul (mul (num 773306314260480000) (t 7)) (t
    10))) (mul (mul (num 165708495912960000) (t 13)) (t 2))) (mul (mul (num 3452260331520000) (t 10)) (t 13)))) x)
    (num 47134861059686400)) (div (mul (mul (mul (t 1) (t 4)) (t 22)) (add (add (mul (mul (num 5258482936971264000) (t
    7)) x) (mul (mul (mul (num 3756059240693760000) (t 10)) (t 2)) x)) (mul (mul (num 352130553815040000) (t 13)) x)))
    (num 235674305298432000)))⟩

/-- `P_11_6` (ass_leg_function.cc:3492-3514). -/
def P_11_6 : Prog :=
⟨[(1, (sqrt (num 7293))), (2, (mul x x)), (3, (sub (num 1) (t 2))), (4, (mul (t 3) (t 3))), (7, (mul (t 2) (t 2))),
    (10, (neg (t 3))), (14, (mul (t 10) (t 10)))], (div (mul (mul (mul (t 1) (t 4)) (t 3)) (add (add (mul (mul (num
    5258482936971264000) (t 7)) x) (mul (mul (mul (num 3756059240693760000) (t 10)) (t 2)) x)) (mul (mul (num
    352130553815040000) (t 14)) x))) (num 12019389570220032000))⟩

/-- `P_11_6_Deriv` (ass_leg_function.cc:3518-3545). -/
def P_11_6_Deriv : Prog :=
⟨[(1, (sqrt (num 7293))), (2, (mul x x)), (3, (sub (num 1) (t 2))), (4, (mul (t 3) (t 3))), (6, (mul (t 2) (t 2))),
    (9, (neg (t 3))), (13, (mul (t 9) (t 9)))], (add (div (mul (mul (mul (neg (t 1)) (t 4)) (add (add (mul (mul (num
    5258482936971264000) (t 6)) x) (mul (mul (mul (num 3756059240693760000) (t 9)) (t 2)) x)) (mul (mul (num
    352130553815040000) (t 13)) x))) x) (num 2003231595036672000)) (div (mul (mul (mul (t 1) (t 4)) (t 3)) (add (add
    (mul (num 33804533166243840000) (t 6)) (mul (mul (num 12676699937341440000) (t 9)) (t 2))) (mul (num
    352130553815040000) (t 13)))) (num 12019389570220032000)))⟩

/-- `P_11_7` (ass_leg_function.cc:3549-3573). -/
def P_11_7 : Prog :=
⟨[(1, (sqrt (num 72930))), (2, (mul x x)), (3, (sub (num 1) (t 2))), (4, (mul (t 3) (t 3))), (6, (sqrt (t 3))), (9,
    (mul (t 2) (t 2))), (11, (neg (t 3))), (14, (mul (t 11) (t 11)))], (div (mul (mul (mul (mul (neg (t 1)) (t 6)) (t
    4)) (t 3)) (add (add (mul (num 33804533166243840000) (t 9)) (mul (mul (num 12676699937341440000) (t 11)) (t 2)))
    (mul (num 352130553815040000) (t 14)))) (num 360581687106600960000))⟩

/-- `P_11_7_Deriv` (ass_leg_function.cc:3577-3605). -/
def P_11_7_Deriv : Prog :=
⟨[(1, (sqrt (num 72930))), (2, (mul x x)), (3, (sub (num 1) (t 2))), (4, (mul (t 3) (t 3))), (5, (sqrt (t 3))), (8,
    (mul (t 2) (t 2))), (10, (neg (t 3))), (13, (mul (t 10) (t 10)))], (sub (div (mul (mul (mul (mul (t 1) (t 5)) (t
    4)) (add (add (mul (num 33804533166243840000) (t 8)) (mul (mul (num 12676699937341440000) (t 10)) (t 2))) (mul
    (num 352130553815040000) (t 13)))) x) (num 51511669586657280000)) (div (mul (mul (mul (mul (t 1) (t 5)) (t 4)) (t
    3)) (add (mul (mul (num 160571532539658240000) (t 2)) x) (mul (mul (num 26761922089943040000) (t 10)) x))) (num
    360581687106600960000)))⟩

/-- `P_11_8` (ass_leg_function.cc:3609-3626). -/
def P_11_8 : Prog :=
⟨[(1, (sqrt (num 1385670))), (2, (mul x x)), (3, (sub (num 1) (t 2))), (4, (mul (t 3) (t 3))), (5, (mul (t 4) (t
    4)))], (div (mul (mul (t 1) (t 5)) (sub (mul (mul (num 160571532539658240000) (t 2)) x) (mul (mul (num
    26761922089943040000) (t 3)) x))) (num 13702104110050836480000))⟩

/-- `P_11_8_Deriv` (ass_leg_function.cc:3630-3650). -/
def P_11_8_Deriv : Prog :=
⟨[(1, (sqrt (num 1385670))), (2, (mul x x)), (3, (sub (num 1) (t 2))), (4, (mul (t 3) (t 3))), (16, (mul (t 4) (t
    4)))], (add (div (mul (mul (mul (mul (neg (t 1)) (t 4)) (t 3)) (sub (mul (mul (num 160571532539658240000) (t 2))
    x) (mul (mul (num 26761922089943040000) (t 3)) x))) x) (num 1712763013756354560000)) (div (mul (mul (t 1) (t 16))
    (sub (mul (num 562000363888803840000) (t 2)) (num 26761922089943040000))) (num 13702104110050836480000)))⟩

/-- `P_11_9` (ass_leg_function.cc:3654-3672). -/
def P_11_9 : Prog :=
⟨[(1, (sqrt (num 92378))), (2, (mul x x)), (3, (sub (num 1) (t 2))), (4, (mul (t 3) (t 3))), (5, (mul (t 4) (t 4))),
    (6, (sqrt (t 3)))], (div (mul (mul (mul (neg (t 1)) (t 6)) (t 5)) (sub (mul (num 562000363888803840000) (t 2))
    (num 26761922089943040000))) (num 27404208220101672960000))⟩

/-- `P_11_9_Deriv` (ass_leg_function.cc:3676-3695). -/
def P_11_9_Deriv : Prog :=
⟨[(1, (sqrt (num 92378))), (2, (mul x x)), (3, (sub (num 1) (t 2))), (4, (mul (t 3) (t 3))), (6, (sqrt (t 3))), (14,
    (mul (t 4) (t 4)))], (sub (div (mul (mul (mul (mul (mul (t 1) (t 6)) (t 4)) (t 3)) (sub (mul (num
    562000363888803840000) (t 2)) (num 26761922089943040000))) x) (num 3044912024455741440000)) (mul (mul (mul (mul
    (div (num 21) (num 512)) (t 1)) (t 6)) (t 14)) x))⟩

/-- `P_11_10` (ass_leg_function.cc:3699-3713). -/
def P_11_10 : Prog :=
⟨[(1, (sqrt (num 969969))), (2, (mul x x)), (3, (sub (num 1) (t 2))), (4, (mul (t 3) (t 3))), (5, (mul (t 4) (t 4)))],
    (div (mul (mul (mul (t 1) (t 5)) (t 3)) x) (num 512))⟩

/-- `P_11_10_Deriv` (ass_leg_function.cc:3717-3731). -/
def P_11_10_Deriv : Prog :=
⟨[(1, (sqrt (num 969969))), (2, (mul x x)), (3, (sub (num 1) (t 2))), (4, (mul (t 3) (t 3))), (5, (mul (t 4) (t 4)))],
    (add (mul (mul (mul (div (neg (num 5)) (num 256)) (t 1)) (t 5)) (t 2)) (div (mul (mul (t 1) (t 5)) (t 3)) (num
    512)))⟩

/-- `P_11_11` (ass_leg_function.cc:3735-3751). -/
def P_11_11 : Prog :=
⟨[(1, (sqrt (num 176358))), (2, (mul x x)), (3, (sub (num 1) (t 2))), (4, (mul (t 3) (t 3))), (5, (mul (t 4) (t 4))),
    (7, (sqrt (t 3)))], (div (mul (mul (mul (neg (t 1)) (t 7)) (t 5)) (t 3)) (num 1024))⟩

/-- `P_11_11_Deriv` (ass_leg_function.cc:3755-3771). -/
def P_11_11_Deriv : Prog :=
⟨[(1, (sqrt (num 176358))), (2, (mul x x)), (3, (sub (num 1) (t 2))), (4, (mul (t 3) (t 3))), (5, (mul (t 4) (t 4))),
    (6, (sqrt (t 3)))], (mul (mul (mul (mul (div (num 11) (num 1024)) (t 1)) (t 6)) (t 5)) x)⟩

/-- The functions `P_11_m`. -/
def vals11 : List Prog := [P_11_0, P_11_1, P_11_2, P_11_3, P_11_4, P_11_5, P_11_6, P_11_7, P_11_8, P_11_9, P_11_10,
    P_11_11]

/-- The functions `P_11_m_Deriv`. -/
def ders11 : List Prog := [P_11_0_Deriv, P_11_1_Deriv, P_11_2_Deriv, P_11_3_Deriv, P_11_4_Deriv, P_11_5_Deriv,
    P_11_6_Deriv, P_11_7_Deriv, P_11_8_Deriv, P_11_9_Deriv, P_11_10_Deriv, P_11_11_Deriv]

/-- Certificates. -/
def certs11 : List (ℕ × ℕ × ℕ) := [(1, 1, 1), (33, 1, 2), (4290, 1, 2), (15015, 1, 12), (2002, 1, 360), (286, 1,
    10080), (7293, 1, 20160), (72930, 1, 60480), (1385670, 1, 120960), (92378, 1, 3628800), (969969, 1, 7257600),
    (176358, 1, 79833600)]

theorem row11 : checkRow 11 0 certs11 vals11 ders11 = true := by decide +kernel

end PiBem.Legendre.Table

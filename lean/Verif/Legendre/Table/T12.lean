import Verif.Legendre.Check

/-! Generated by tools/leggen.py from source/ass_leg_function.cc: the functions `P_12_m` and `P_12_m_Deriv`. -/

namespace PiBem.Legendre.Table

open Ex

/-- `P_12_0` (ass_leg_function.cc:3773-3792). -/
def P_12_0 : Prog :=
⟨[(1, (mul x x)), (2, (mul (t 1) (t 1))), (3, (mul (t 2) (t 2))), (5, (sub (t 1) (num 1))), (9, (mul (t 5) (t 5))),
    (16, (mul (t 9) (t 9)))], (add (add (add (add (add (add (mul (t 3) (t 2)) (mul (mul (mul (num 33) (t 5)) (t 3)) (t
    1))) (mul (mul (div (num 1485) (num 8)) (t 9)) (t 3))) (mul (mul (mul (mul (div (num 1155) (num 4)) (t 9)) (t 5))
    (t 2)) (t 1))) (mul (mul (div (num 17325) (num 128)) (t 16)) (t 2))) (mul (mul (mul (div (num 2079) (num 128)) (t
    16)) (t 5)) (t 1))) (mul (mul (div (num 231) (num 1024)) (t 16)) (t 9)))⟩

/-- `P_12_0_Deriv` (ass_leg_function.cc:3794-3815). -/
def P_12_0_Deriv : Prog :=
⟨[(1, (mul x x)), (2, (mul (t 1) x)), (3, (mul (t 1) (t 1))), (4, (mul (t 3) (t 3))), (7, (sub (t 1) (num 1))), (11,
    (mul (t 7) (t 7))), (19, (mul (t 11) (t 11)))], (add (add (add (add (add (mul (mul (num 78) (t 2)) (t 4)) (mul
    (mul (mul (div (num 2145) (num 2)) (t 7)) (t 4)) x)) (mul (mul (mul (div (num 6435) (num 2)) (t 11)) (t 3)) (t
    2))) (mul (mul (mul (mul (div (num 45045) (num 16)) (t 11)) (t 7)) (t 3)) x)) (mul (mul (div (num 45045) (num 64))
    (t 19)) (t 2))) (mul (mul (mul (div (num 9009) (num 256)) (t 19)) (t 7)) x))⟩

/-- `P_12_1` (ass_leg_function.cc:3819-3849). -/
def P_12_1 : Prog :=
⟨[(1, (sqrt (num 39))), (2, (mul x x)), (3, (sub (num 1) (t 2))), (4, (sqrt (t 3))), (6, (mul (t 2) x)), (7, (mul (t
    2) (t 2))), (8, (mul (t 7) (t 7))), (11, (neg (t 3))), (15, (mul (t 11) (t 11))), (23, (mul (t 15) (t 15)))], (div
    (mul (mul (neg (t 1)) (t 4)) (add (add (add (add (add (mul (mul (num 153035263180800) (t 8)) (t 6)) (mul (mul (mul
    (num 2104234868736000) (t 11)) (t 8)) x)) (mul (mul (mul (num 6312704606208000) (t 15)) (t 7)) (t 6))) (mul (mul
    (mul (mul (num 5523616530432000) (t 15)) (t 11)) (t 7)) x)) (mul (mul (num 1380904132608000) (t 23)) (t 6))) (mul
    (mul (mul (num 69045206630400) (t 23)) (t 11)) x))) (num 153035263180800))⟩

/-- `P_12_1_Deriv` (ass_leg_function.cc:3853-3893). -/
def P_12_1_Deriv : Prog :=
⟨[(1, (sqrt (num 39))), (2, (mul x x)), (3, (sub (num 1) (t 2))), (4, (sqrt (t 3))), (7, (mul (t 2) x)), (8, (mul (t
    2) (t 2))), (9, (mul (t 8) (t 8))), (12, (neg (t 3))), (16, (mul (t 12) (t 12))), (20, (mul (t 16) (t 12))), (24,
    (mul (t 16) (t 16))), (27, (mul (t 24) (t 12)))], (sub (div (mul (mul (div (t 1) (t 4)) (add (add (add (add (add
    (mul (mul (num 153035263180800) (t 7)) (t 9)) (mul (mul (mul (num 2104234868736000) (t 9)) (t 12)) x)) (mul (mul
    (mul (num 6312704606208000) (t 16)) (t 8)) (t 7))) (mul (mul (mul (num 5523616530432000) (t 20)) (t 8)) x)) (mul
    (mul (num 1380904132608000) (t 24)) (t 7))) (mul (mul (num 69045206630400) (t 27)) x))) x) (num 153035263180800))
    (div (mul (mul (t 1) (t 4)) (add (add (add (add (add (mul (mul (num 5891857632460800) (t 9)) (t 2)) (mul (mul (num
    44188932243456000) (t 12)) (t 9))) (mul (mul (mul (num 77330631426048000) (t 16)) (t 8)) (t 2))) (mul (mul (num
    38665315713024000) (t 20)) (t 8))) (mul (mul (num 4833164464128000) (t 24)) (t 2))) (mul (num 69045206630400) (t
    27)))) (num 153035263180800)))⟩

/-- `P_12_2` (ass_leg_function.cc:3897-3922). -/
def P_12_2 : Prog :=
⟨[(1, (sqrt (num 6006))), (2, (mul x x)), (3, (sub (num 1) (t 2))), (5, (mul (t 2) (t 2))), (6, (mul (t 5) (t 5))),
    (9, (neg (t 3))), (12, (mul (t 9) (t 9))), (19, (mul (t 12) (t 12)))], (div (mul (mul (t 1) (t 3)) (add (add (add
    (add (add (mul (mul (num 5891857632460800) (t 6)) (t 2)) (mul (mul (num 44188932243456000) (t 9)) (t 6))) (mul
    (mul (mul (num 77330631426048000) (t 12)) (t 5)) (t 2))) (mul (mul (mul (num 38665315713024000) (t 12)) (t 9)) (t
    5))) (mul (mul (num 4833164464128000) (t 19)) (t 2))) (mul (mul (num 69045206630400) (t 9)) (t 19)))) (num
    23567430529843200))⟩

/-- `P_12_2_Deriv` (ass_leg_function.cc:3926-3960). -/
def P_12_2_Deriv : Prog :=
⟨[(1, (sqrt (num 6006))), (3, (mul x x)), (4, (mul (t 3) (t 3))), (5, (mul (t 4) (t 4))), (8, (sub (t 3) (num 1))),
    (11, (mul (t 8) (t 8))), (15, (mul (t 11) (t 8))), (18, (mul (t 11) (t 11))), (30, (mul (t 3) x))], (sub (div (mul
    (mul (neg (t 1)) x) (add (add (add (add (add (mul (mul (num 5891857632460800) (t 5)) (t 3)) (mul (mul (num
    44188932243456000) (t 8)) (t 5))) (mul (mul (mul (num 77330631426048000) (t 11)) (t 4)) (t 3))) (mul (mul (num
    38665315713024000) (t 15)) (t 4))) (mul (mul (num 4833164464128000) (t 18)) (t 3))) (mul (mul (num 69045206630400)
    (t 18)) (t 8)))) (num 11783715264921600)) (div (mul (mul (t 1) (t 8)) (add (add (add (add (mul (mul (num
    147296440811520000) (t 5)) x) (mul (mul (mul (num 662833983651840000) (t 8)) (t 4)) (t 30))) (mul (mul (mul (num
    695975682834432000) (t 11)) (t 4)) x)) (mul (mul (num 193326578565120000) (t 15)) (t 30))) (mul (mul (num
    10356780994560000) (t 18)) x))) (num 23567430529843200)))⟩

/-- `P_12_3` (ass_leg_function.cc:3964-3994). -/
def P_12_3 : Prog :=
⟨[(1, (sqrt (num 1001))), (2, (mul x x)), (3, (sub (num 1) (t 2))), (4, (sqrt (t 3))), (7, (mul (t 2) (t 2))), (8,
    (mul (t 7) (t 7))), (11, (neg (t 3))), (12, (mul (t 2) x)), (16, (mul (t 11) (t 11))), (23, (mul (t 16) (t 16)))],
    (div (mul (mul (mul (neg (t 1)) (t 4)) (t 3)) (add (add (add (add (mul (mul (num 147296440811520000) (t 8)) x)
    (mul (mul (mul (num 662833983651840000) (t 11)) (t 7)) (t 12))) (mul (mul (mul (num 695975682834432000) (t 16)) (t
    7)) x)) (mul (mul (mul (num 193326578565120000) (t 16)) (t 11)) (t 12))) (mul (mul (num 10356780994560000) (t 23))
    x))) (num 117837152649216000))⟩

/-- `P_12_3_Deriv` (ass_leg_function.cc:3998-4036). -/
def P_12_3_Deriv : Prog :=
⟨[(1, (sqrt (num 1001))), (2, (mul x x)), (3, (sub (num 1) (t 2))), (4, (sqrt (t 3))), (6, (mul (t 2) (t 2))), (7,
    (mul (t 6) (t 6))), (10, (neg (t 3))), (11, (mul (t 2) x)), (15, (mul (t 10) (t 10))), (19, (mul (t 15) (t 10))),
    (22, (mul (t 15) (t 15)))], (sub (div (mul (mul (mul (t 1) (t 4)) (add (add (add (add (mul (mul (num
    147296440811520000) (t 7)) x) (mul (mul (mul (num 662833983651840000) (t 10)) (t 6)) (t 11))) (mul (mul (mul (num
    695975682834432000) (t 15)) (t 6)) x)) (mul (mul (num 193326578565120000) (t 19)) (t 11))) (mul (mul (num
    10356780994560000) (t 22)) x))) x) (num 39279050883072000)) (div (mul (mul (mul (t 1) (t 4)) (t 3)) (add (add (add
    (add (mul (num 2651335934607360000) (t 7)) (mul (mul (mul (num 7423740616900608000) (t 10)) (t 6)) (t 2))) (mul
    (mul (num 4639837885562880000) (t 15)) (t 6))) (mul (mul (num 662833983651840000) (t 19)) (t 2))) (mul (num
    10356780994560000) (t 22)))) (num 117837152649216000)))⟩

/-- `P_12_4` (ass_leg_function.cc:4040-4067). -/
def P_12_4 : Prog :=
⟨[(1, (sqrt (num 1001))), (2, (mul x x)), (3, (sub (num 1) (t 2))), (4, (mul (t 3) (t 3))), (6, (mul (t 2) (t 2))),
    (7, (mul (t 6) (t 6))), (9, (neg (t 3))), (13, (mul (t 9) (t 9))), (19, (mul (t 13) (t 13)))], (div (mul (mul (t
    1) (t 4)) (add (add (add (add (mul (num 2651335934607360000) (t 7)) (mul (mul (mul (num 7423740616900608000) (t
    9)) (t 6)) (t 2))) (mul (mul (num 4639837885562880000) (t 13)) (t 6))) (mul (mul (mul (num 662833983651840000) (t
    13)) (t 9)) (t 2))) (mul (num 10356780994560000) (t 19)))) (num 1414045831790592000))⟩

/-- `P_12_4_Deriv` (ass_leg_function.cc:4071-4108). -/
def P_12_4_Deriv : Prog :=
⟨[(1, (sqrt (num 1001))), (2, (mul x x)), (3, (sub (num 1) (t 2))), (5, (mul (t 2) (t 2))), (6, (mul (t 5) (t 5))),
    (8, (neg (t 3))), (12, (mul (t 8) (t 8))), (15, (mul (t 12) (t 8))), (18, (mul (t 12) (t 12))), (24, (mul (t 3) (t
    3))), (26, (mul (t 2) x))], (add (div (mul (mul (mul (neg (t 1)) (t 3)) (add (add (add (add (mul (num
    2651335934607360000) (t 6)) (mul (mul (mul (num 7423740616900608000) (t 8)) (t 5)) (t 2))) (mul (mul (num
    4639837885562880000) (t 12)) (t 5))) (mul (mul (num 662833983651840000) (t 15)) (t 2))) (mul (num
    10356780994560000) (t 18)))) x) (num 353511457947648000)) (div (mul (mul (t 1) (t 24)) (add (add (add (mul (mul
    (num 36058168710660096000) (t 5)) (t 26)) (mul (mul (mul (num 63101795243655168000) (t 8)) (t 5)) x)) (mul (mul
    (num 22536355444162560000) (t 12)) (t 26))) (mul (mul (num 1408522215260160000) (t 15)) x))) (num
    1414045831790592000)))⟩

/-- `P_12_5` (ass_leg_function.cc:4112-4139). -/
def P_12_5 : Prog :=
⟨[(1, (sqrt (num 34034))), (2, (mul x x)), (3, (sub (num 1) (t 2))), (4, (mul (t 3) (t 3))), (5, (sqrt (t 3))), (8,
    (mul (t 2) x)), (9, (mul (t 2) (t 2))), (12, (neg (t 3))), (16, (mul (t 12) (t 12)))], (div (mul (mul (mul (neg (t
    1)) (t 5)) (t 4)) (add (add (add (mul (mul (num 36058168710660096000) (t 9)) (t 8)) (mul (mul (mul (num
    63101795243655168000) (t 12)) (t 9)) x)) (mul (mul (num 22536355444162560000) (t 16)) (t 8))) (mul (mul (mul (num
    1408522215260160000) (t 16)) (t 12)) x))) (num 96155116561760256000))⟩

/-- `P_12_5_Deriv` (ass_leg_function.cc:4143-4178). -/
def P_12_5_Deriv : Prog :=
⟨[(1, (sqrt (num 34034))), (2, (mul x x)), (3, (sub (num 1) (t 2))), (4, (sqrt (t 3))), (7, (mul (t 2) x)), (8, (mul
    (t 2) (t 2))), (11, (neg (t 3))), (15, (mul (t 11) (t 11))), (18, (mul (t 15) (t 11))), (25, (mul (t 3) (t 3)))],
    (sub (div (mul (mul (mul (mul (t 1) (t 4)) (t 3)) (add (add (add (mul (mul (num 36058168710660096000) (t 8)) (t
    7)) (mul (mul (mul (num 63101795243655168000) (t 11)) (t 8)) x)) (mul (mul (num 22536355444162560000) (t 15)) (t
    7))) (mul (mul (num 1408522215260160000) (t 18)) x))) x) (num 19231023312352051200)) (div (mul (mul (mul (t 1) (t
    4)) (t 25)) (add (add (add (mul (mul (num 378610771461931008000) (t 8)) (t 2)) (mul (mul (num
    405654397994926080000) (t 11)) (t 8))) (mul (mul (num 76060199624048640000) (t 2)) (t 15))) (mul (num
    1408522215260160000) (t 18)))) (num 96155116561760256000)))⟩

/-- `P_12_6` (ass_leg_function.cc:4182-4205). -/
def P_12_6 : Prog :=
⟨[(1, (sqrt (num 2431))), (2, (mul x x)), (3, (sub (num 1) (t 2))), (4, (mul (t 3) (t 3))), (7, (mul (t 2) (t 2))),
    (10, (neg (t 3))), (13, (mul (t 10) (t 10)))], (div (mul (mul (mul (t 1) (t 4)) (t 3)) (add (add (add (mul (mul
    (num 378610771461931008000) (t 7)) (t 2)) (mul (mul (num 405654397994926080000) (t 10)) (t 7))) (mul (mul (num
    76060199624048640000) (t 13)) (t 2))) (mul (mul (num 1408522215260160000) (t 13)) (t 10)))) (num
    288465349685280768000))⟩

/-- `P_12_6_Deriv` (ass_leg_function.cc:4209-4237). -/
def P_12_6_Deriv : Prog :=
⟨[(1, (sqrt (num 2431))), (2, (mul x x)), (3, (sub (num 1) (t 2))), (4, (mul (t 3) (t 3))), (6, (mul (t 2) (t 2))),
    (9, (neg (t 3))), (12, (mul (t 9) (t 9)))], (add (div (mul (mul (mul (neg (t 1)) (t 4)) (add (add (add (mul (mul
    (num 378610771461931008000) (t 2)) (t 6)) (mul (mul (num 405654397994926080000) (t 9)) (t 6))) (mul (mul (num
    76060199624048640000) (t 12)) (t 2))) (mul (mul (num 1408522215260160000) (t 12)) (t 9)))) x) (num
    48077558280880128000)) (div (mul (mul (mul (t 1) (t 4)) (t 3)) (add (add (mul (mul (num 3082973424761438208000) (t
    6)) x) (mul (mul (mul (num 1926858390475898880000) (t 9)) (t 2)) x)) (mul (mul (num 160571532539658240000) (t 12))
    x))) (num 288465349685280768000)))⟩

/-- `P_12_7` (ass_leg_function.cc:4241-4265). -/
def P_12_7 : Prog :=
⟨[(1, (sqrt (num 277134))), (2, (mul x x)), (3, (sub (num 1) (t 2))), (4, (mul (t 3) (t 3))), (6, (sqrt (t 3))), (9,
    (mul (t 2) (t 2))), (12, (neg (t 3))), (16, (mul (t 12) (t 12)))], (div (mul (mul (mul (mul (neg (t 1)) (t 6)) (t
    4)) (t 3)) (add (add (mul (mul (num 3082973424761438208000) (t 9)) x) (mul (mul (mul (num 1926858390475898880000)
    (t 12)) (t 2)) x)) (mul (mul (num 160571532539658240000) (t 16)) x))) (num 32885049864122007552000))⟩

/-- `P_12_7_Deriv` (ass_leg_function.cc:4269-4298). -/
def P_12_7_Deriv : Prog :=
⟨[(1, (sqrt (num 277134))), (2, (mul x x)), (3, (sub (num 1) (t 2))), (4, (mul (t 3) (t 3))), (5, (sqrt (t 3))), (8,
    (mul (t 2) (t 2))), (11, (neg (t 3))), (15, (mul (t 11) (t 11)))], (sub (div (mul (mul (mul (mul (t 1) (t 5)) (t
    4)) (add (add (mul (mul (num 3082973424761438208000) (t 8)) x) (mul (mul (mul (num 1926858390475898880000) (t 11))
    (t 2)) x)) (mul (mul (num 160571532539658240000) (t 15)) x))) x) (num 4697864266303143936000)) (div (mul (mul (mul
    (mul (t 1) (t 5)) (t 4)) (t 3)) (add (add (mul (num 19268583904758988800000) (t 8)) (mul (mul (num
    6422861301586329600000) (t 11)) (t 2))) (mul (num 160571532539658240000) (t 15)))) (num
    32885049864122007552000)))⟩

/-- `P_12_8` (ass_leg_function.cc:4302-4326). -/
def P_12_8 : Prog :=
⟨[(1, (sqrt (num 277134))), (2, (mul x x)), (3, (sub (num 1) (t 2))), (4, (mul (t 3) (t 3))), (5, (mul (t 4) (t 4))),
    (7, (mul (t 2) (t 2))), (9, (neg (t 3))), (12, (mul (t 9) (t 9)))], (div (mul (mul (t 1) (t 5)) (add (add (mul
    (num 19268583904758988800000) (t 7)) (mul (mul (num 6422861301586329600000) (t 9)) (t 2))) (mul (num
    160571532539658240000) (t 12)))) (num 328850498641220075520000))⟩

/-- `P_12_8_Deriv` (ass_leg_function.cc:4330-4358). -/
def P_12_8_Deriv : Prog :=
⟨[(1, (sqrt (num 277134))), (2, (mul x x)), (3, (sub (num 1) (t 2))), (4, (mul (t 3) (t 3))), (7, (mul (t 2) (t 2))),
    (9, (neg (t 3))), (12, (mul (t 9) (t 9))), (18, (mul (t 4) (t 4)))], (add (div (mul (mul (mul (mul (neg (t 1)) (t
    4)) (t 3)) (add (add (mul (num 19268583904758988800000) (t 7)) (mul (mul (num 6422861301586329600000) (t 9)) (t
    2))) (mul (num 160571532539658240000) (t 12)))) x) (num 41106312330152509440000)) (div (mul (mul (t 1) (t 18))
    (add (mul (mul (num 89920058222208614400000) (t 2)) x) (mul (mul (num 13488008733331292160000) (t 9)) x))) (num
    328850498641220075520000)))⟩

/-- `P_12_9` (ass_leg_function.cc:4362-4381). -/
def P_12_9 : Prog :=
⟨[(1, (sqrt (num 646646))), (2, (mul x x)), (3, (sub (num 1) (t 2))), (4, (mul (t 3) (t 3))), (5, (mul (t 4) (t 4))),
    (6, (sqrt (t 3)))], (div (mul (mul (mul (neg (t 1)) (t 6)) (t 5)) (sub (mul (mul (num 89920058222208614400000) (t
    2)) x) (mul (mul (num 13488008733331292160000) (t 3)) x))) (num 4603906980977081057280000))⟩

/-- `P_12_9_Deriv` (ass_leg_function.cc:4385-4408). -/
def P_12_9_Deriv : Prog :=
⟨[(1, (sqrt (num 646646))), (2, (mul x x)), (3, (sub (num 1) (t 2))), (4, (mul (t 3) (t 3))), (6, (sqrt (t 3))), (18,
    (mul (t 4) (t 4)))], (sub (div (mul (mul (mul (mul (mul (t 1) (t 6)) (t 4)) (t 3)) (sub (mul (mul (num
    89920058222208614400000) (t 2)) x) (mul (mul (num 13488008733331292160000) (t 3)) x))) x) (num
    511545220108564561920000)) (div (mul (mul (mul (t 1) (t 6)) (t 18)) (sub (mul (num 310224200866619719680000) (t
    2)) (num 13488008733331292160000))) (num 4603906980977081057280000)))⟩

/-- `P_12_10` (ass_leg_function.cc:4412-4428). -/
def P_12_10 : Prog :=
⟨[(1, (sqrt (num 88179))), (2, (mul x x)), (3, (sub (num 1) (t 2))), (4, (mul (t 3) (t 3))), (5, (mul (t 4) (t 4)))],
    (div (mul (mul (mul (t 1) (t 5)) (t 3)) (sub (mul (num 310224200866619719680000) (t 2)) (num
    13488008733331292160000))) (num 13811720942931243171840000))⟩

/-- `P_12_10_Deriv` (ass_leg_function.cc:4432-4450). -/
def P_12_10_Deriv : Prog :=
⟨[(1, (sqrt (num 88179))), (2, (mul x x)), (3, (sub (num 1) (t 2))), (4, (mul (t 3) (t 3))), (5, (mul (t 4) (t 4)))],
    (add (div (mul (mul (mul (neg (t 1)) (t 5)) (sub (mul (num 310224200866619719680000) (t 2)) (num
    13488008733331292160000))) x) (num 1381172094293124317184000)) (mul (mul (mul (mul (div (num 23) (num 512)) (t 1))
    (t 5)) (t 3)) x))⟩

/-- `P_12_11` (ass_leg_function.cc:4454-4470). -/
def P_12_11 : Prog :=
⟨[(1, (sqrt (num 4056234))), (2, (mul x x)), (3, (sub (num 1) (t 2))), (4, (mul (t 3) (t 3))), (5, (mul (t 4) (t 4))),
    (7, (sqrt (t 3)))], (div (mul (mul (mul (mul (neg (t 1)) (t 7)) (t 5)) (t 3)) x) (num 1024))⟩

/-- `P_12_11_Deriv` (ass_leg_function.cc:4474-4490). -/
def P_12_11_Deriv : Prog :=
⟨[(1, (sqrt (num 4056234))), (2, (mul x x)), (3, (sub (num 1) (t 2))), (4, (mul (t 3) (t 3))), (5, (mul (t 4) (t 4))),
    (6, (sqrt (t 3)))], (sub (mul (mul (mul (mul (div (num 11) (num 1024)) (t 1)) (t 6)) (t 5)) (t 2)) (div (mul (mul
    (mul (t 1) (t 6)) (t 5)) (t 3)) (num 1024)))⟩

/-- `P_12_12` (ass_leg_function.cc:4494-4506). -/
def P_12_12 : Prog :=
⟨[(1, (sqrt (num 676039))), (2, (mul x x)), (4, (sq (sub (num 1) (t 2)))), (5, (mul (t 4) (t 4)))], (div (mul (mul (t
    1) (t 5)) (t 4)) (num 2048))⟩

/-- `P_12_12_Deriv` (ass_leg_function.cc:4510-4524). -/
def P_12_12_Deriv : Prog :=
⟨[(1, (sqrt (num 676039))), (2, (mul x x)), (3, (sub (num 1) (t 2))), (4, (mul (t 3) (t 3))), (5, (mul (t 4) (t 4)))],
    (mul (mul (mul (mul (div (neg (num 3)) (num 512)) (t 1)) (t 5)) (t 3)) x)⟩

/-- The functions `P_12_m`. -/
def vals12 : List Prog := [P_12_0, P_12_1, P_12_2, P_12_3, P_12_4, P_12_5, P_12_6, P_12_7, P_12_8, P_12_9, P_12_10,
    P_12_11, P_12_12]

/-- The functions `P_12_m_Deriv`. -/
def ders12 : List Prog := [P_12_0_Deriv, P_12_1_Deriv, P_12_2_Deriv, P_12_3_Deriv, P_12_4_Deriv, P_12_5_Deriv,
    P_12_6_Deriv, P_12_7_Deriv, P_12_8_Deriv, P_12_9_Deriv, P_12_10_Deriv, P_12_11_Deriv, P_12_12_Deriv]

/-- Certificates. -/
def certs12 : List (ℕ × ℕ × ℕ) := [(1, 1, 1), (39, 1, 2), (6006, 1, 2), (1001, 1, 60), (1001, 1, 720), (34034, 1,
    1440), (2431, 1, 60480), (277134, 1, 60480), (277134, 1, 604800), (646646, 1, 3628800), (88179, 1, 79833600),
    (4056234, 1, 79833600), (676039, 1, 958003200)]

theorem row12 : checkRow 12 0 certs12 vals12 ders12 = true := by decide +kernel

end PiBem.Legendre.Table

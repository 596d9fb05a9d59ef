import Verif.Macros.Model

/-!
# The tables of macros

Each row is one `#define` of the header, token by token: its number, the number of its named
parameters, whether it ends with `...`, and its replacement. In a replacement `.par i` is the i-th
named parameter, and `.arm k ps r` is a use of the macro with number `k` of the same table whose
arguments are the parameters `ps`, followed by `__VA_ARGS__` if `r`.
-/

namespace Nbdl.Macros

/-- The macros `NBDL_MEMBERS63` to `NBDL_MEMBERS2`, `/repo/include/nbdl/macros/NBDL_MEMBERS.hpp` 14–137, in the order of the file. -/
def members : Family := [
  (63, ⟨2, true, [.arm 2 [0, 1] false, .tok .comma, .arm 62 [0] true]⟩),
  (62, ⟨2, true, [.arm 2 [0, 1] false, .tok .comma, .arm 61 [0] true]⟩),
  (61, ⟨2, true, [.arm 2 [0, 1] false, .tok .comma, .arm 60 [0] true]⟩),
  (60, ⟨2, true, [.arm 2 [0, 1] false, .tok .comma, .arm 59 [0] true]⟩),
  (59, ⟨2, true, [.arm 2 [0, 1] false, .tok .comma, .arm 58 [0] true]⟩),
  (58, ⟨2, true, [.arm 2 [0, 1] false, .tok .comma, .arm 57 [0] true]⟩),
  (57, ⟨2, true, [.arm 2 [0, 1] false, .tok .comma, .arm 56 [0] true]⟩),
  (56, ⟨2, true, [.arm 2 [0, 1] false, .tok .comma, .arm 55 [0] true]⟩),
  (55, ⟨2, true, [.arm 2 [0, 1] false, .tok .comma, .arm 54 [0] true]⟩),
  (54, ⟨2, true, [.arm 2 [0, 1] false, .tok .comma, .arm 53 [0] true]⟩),
  (53, ⟨2, true, [.arm 2 [0, 1] false, .tok .comma, .arm 52 [0] true]⟩),
  (52, ⟨2, true, [.arm 2 [0, 1] false, .tok .comma, .arm 51 [0] true]⟩),
  (51, ⟨2, true, [.arm 2 [0, 1] false, .tok .comma, .arm 50 [0] true]⟩),
  (50, ⟨2, true, [.arm 2 [0, 1] false, .tok .comma, .arm 49 [0] true]⟩),
  (49, ⟨2, true, [.arm 2 [0, 1] false, .tok .comma, .arm 48 [0] true]⟩),
  (48, ⟨2, true, [.arm 2 [0, 1] false, .tok .comma, .arm 47 [0] true]⟩),
  (47, ⟨2, true, [.arm 2 [0, 1] false, .tok .comma, .arm 46 [0] true]⟩),
  (46, ⟨2, true, [.arm 2 [0, 1] false, .tok .comma, .arm 45 [0] true]⟩),
  (45, ⟨2, true, [.arm 2 [0, 1] false, .tok .comma, .arm 44 [0] true]⟩),
  (44, ⟨2, true, [.arm 2 [0, 1] false, .tok .comma, .arm 43 [0] true]⟩),
  (43, ⟨2, true, [.arm 2 [0, 1] false, .tok .comma, .arm 42 [0] true]⟩),
  (42, ⟨2, true, [.arm 2 [0, 1] false, .tok .comma, .arm 41 [0] true]⟩),
  (41, ⟨2, true, [.arm 2 [0, 1] false, .tok .comma, .arm 40 [0] true]⟩),
  (40, ⟨2, true, [.arm 2 [0, 1] false, .tok .comma, .arm 39 [0] true]⟩),
  (39, ⟨2, true, [.arm 2 [0, 1] false, .tok .comma, .arm 38 [0] true]⟩),
  (38, ⟨2, true, [.arm 2 [0, 1] false, .tok .comma, .arm 37 [0] true]⟩),
  (37, ⟨2, true, [.arm 2 [0, 1] false, .tok .comma, .arm 36 [0] true]⟩),
  (36, ⟨2, true, [.arm 2 [0, 1] false, .tok .comma, .arm 35 [0] true]⟩),
  (35, ⟨2, true, [.arm 2 [0, 1] false, .tok .comma, .arm 34 [0] true]⟩),
  (34, ⟨2, true, [.arm 2 [0, 1] false, .tok .comma, .arm 33 [0] true]⟩),
  (33, ⟨2, true, [.arm 2 [0, 1] false, .tok .comma, .arm 32 [0] true]⟩),
  (32, ⟨2, true, [.arm 2 [0, 1] false, .tok .comma, .arm 31 [0] true]⟩),
  (31, ⟨2, true, [.arm 2 [0, 1] false, .tok .comma, .arm 30 [0] true]⟩),
  (30, ⟨2, true, [.arm 2 [0, 1] false, .tok .comma, .arm 29 [0] true]⟩),
  (29, ⟨2, true, [.arm 2 [0, 1] false, .tok .comma, .arm 28 [0] true]⟩),
  (28, ⟨2, true, [.arm 2 [0, 1] false, .tok .comma, .arm 27 [0] true]⟩),
  (27, ⟨2, true, [.arm 2 [0, 1] false, .tok .comma, .arm 26 [0] true]⟩),
  (26, ⟨2, true, [.arm 2 [0, 1] false, .tok .comma, .arm 25 [0] true]⟩),
  (25, ⟨2, true, [.arm 2 [0, 1] false, .tok .comma, .arm 24 [0] true]⟩),
  (24, ⟨2, true, [.arm 2 [0, 1] false, .tok .comma, .arm 23 [0] true]⟩),
  (23, ⟨2, true, [.arm 2 [0, 1] false, .tok .comma, .arm 22 [0] true]⟩),
  (22, ⟨2, true, [.arm 2 [0, 1] false, .tok .comma, .arm 21 [0] true]⟩),
  (21, ⟨2, true, [.arm 2 [0, 1] false, .tok .comma, .arm 20 [0] true]⟩),
  (20, ⟨2, true, [.arm 2 [0, 1] false, .tok .comma, .arm 19 [0] true]⟩),
  (19, ⟨2, true, [.arm 2 [0, 1] false, .tok .comma, .arm 18 [0] true]⟩),
  (18, ⟨2, true, [.arm 2 [0, 1] false, .tok .comma, .arm 17 [0] true]⟩),
  (17, ⟨2, true, [.arm 2 [0, 1] false, .tok .comma, .arm 16 [0] true]⟩),
  (16, ⟨2, true, [.arm 2 [0, 1] false, .tok .comma, .arm 15 [0] true]⟩),
  (15, ⟨2, true, [.arm 2 [0, 1] false, .tok .comma, .arm 14 [0] true]⟩),
  (14, ⟨2, true, [.arm 2 [0, 1] false, .tok .comma, .arm 13 [0] true]⟩),
  (13, ⟨2, true, [.arm 2 [0, 1] false, .tok .comma, .arm 12 [0] true]⟩),
  (12, ⟨2, true, [.arm 2 [0, 1] false, .tok .comma, .arm 11 [0] true]⟩),
  (11, ⟨2, true, [.arm 2 [0, 1] false, .tok .comma, .arm 10 [0] true]⟩),
  (10, ⟨2, true, [.arm 2 [0, 1] false, .tok .comma, .arm 9 [0] true]⟩),
  (9, ⟨2, true, [.arm 2 [0, 1] false, .tok .comma, .arm 8 [0] true]⟩),
  (8, ⟨2, true, [.arm 2 [0, 1] false, .tok .comma, .arm 7 [0] true]⟩),
  (7, ⟨2, true, [.arm 2 [0, 1] false, .tok .comma, .arm 6 [0] true]⟩),
  (6, ⟨2, true, [.arm 2 [0, 1] false, .tok .comma, .arm 5 [0] true]⟩),
  (5, ⟨2, true, [.arm 2 [0, 1] false, .tok .comma, .arm 4 [0] true]⟩),
  (4, ⟨2, true, [.arm 2 [0, 1] false, .tok .comma, .arm 3 [0] true]⟩),
  (3, ⟨2, true, [.arm 2 [0, 1] false, .tok .comma, .arm 2 [0] true]⟩),
  (2, ⟨2, false, [.tok .member, .tok .lpar, .tok .amp, .par 0, .tok .colons, .par 1, .tok .rpar]⟩)]

/-- The macros `NBDL_MEMBER_NAMES63` to `NBDL_MEMBER_NAMES2`, `/repo/include/nbdl/macros/NBDL_MEMBER_NAMES.hpp` 13–136, in the order of the file. -/
def memberNames : Family := [
  (63, ⟨2, true, [.arm 2 [0, 1] false, .arm 62 [0] true]⟩),
  (62, ⟨2, true, [.arm 2 [0, 1] false, .arm 61 [0] true]⟩),
  (61, ⟨2, true, [.arm 2 [0, 1] false, .arm 60 [0] true]⟩),
  (60, ⟨2, true, [.arm 2 [0, 1] false, .arm 59 [0] true]⟩),
  (59, ⟨2, true, [.arm 2 [0, 1] false, .arm 58 [0] true]⟩),
  (58, ⟨2, true, [.arm 2 [0, 1] false, .arm 57 [0] true]⟩),
  (57, ⟨2, true, [.arm 2 [0, 1] false, .arm 56 [0] true]⟩),
  (56, ⟨2, true, [.arm 2 [0, 1] false, .arm 55 [0] true]⟩),
  (55, ⟨2, true, [.arm 2 [0, 1] false, .arm 54 [0] true]⟩),
  (54, ⟨2, true, [.arm 2 [0, 1] false, .arm 53 [0] true]⟩),
  (53, ⟨2, true, [.arm 2 [0, 1] false, .arm 52 [0] true]⟩),
  (52, ⟨2, true, [.arm 2 [0, 1] false, .arm 51 [0] true]⟩),
  (51, ⟨2, true, [.arm 2 [0, 1] false, .arm 50 [0] true]⟩),
  (50, ⟨2, true, [.arm 2 [0, 1] false, .arm 49 [0] true]⟩),
  (49, ⟨2, true, [.arm 2 [0, 1] false, .arm 48 [0] true]⟩),
  (48, ⟨2, true, [.arm 2 [0, 1] false, .arm 47 [0] true]⟩),
  (47, ⟨2, true, [.arm 2 [0, 1] false, .arm 46 [0] true]⟩),
  (46, ⟨2, true, [.arm 2 [0, 1] false, .arm 45 [0] true]⟩),
  (45, ⟨2, true, [.arm 2 [0, 1] false, .arm 44 [0] true]⟩),
  (44, ⟨2, true, [.arm 2 [0, 1] false, .arm 43 [0] true]⟩),
  (43, ⟨2, true, [.arm 2 [0, 1] false, .arm 42 [0] true]⟩),
  (42, ⟨2, true, [.arm 2 [0, 1] false, .arm 41 [0] true]⟩),
  (41, ⟨2, true, [.arm 2 [0, 1] false, .arm 40 [0] true]⟩),
  (40, ⟨2, true, [.arm 2 [0, 1] false, .arm 39 [0] true]⟩),
  (39, ⟨2, true, [.arm 2 [0, 1] false, .arm 38 [0] true]⟩),
  (38, ⟨2, true, [.arm 2 [0, 1] false, .arm 37 [0] true]⟩),
  (37, ⟨2, true, [.arm 2 [0, 1] false, .arm 36 [0] true]⟩),
  (36, ⟨2, true, [.arm 2 [0, 1] false, .arm 35 [0] true]⟩),
  (35, ⟨2, true, [.arm 2 [0, 1] false, .arm 34 [0] true]⟩),
  (34, ⟨2, true, [.arm 2 [0, 1] false, .arm 33 [0] true]⟩),
  (33, ⟨2, true, [.arm 2 [0, 1] false, .arm 32 [0] true]⟩),
  (32, ⟨2, true, [.arm 2 [0, 1] false, .arm 31 [0] true]⟩),
  (31, ⟨2, true, [.arm 2 [0, 1] false, .arm 30 [0] true]⟩),
  (30, ⟨2, true, [.arm 2 [0, 1] false, .arm 29 [0] true]⟩),
  (29, ⟨2, true, [.arm 2 [0, 1] false, .arm 28 [0] true]⟩),
  (28, ⟨2, true, [.arm 2 [0, 1] false, .arm 27 [0] true]⟩),
  (27, ⟨2, true, [.arm 2 [0, 1] false, .arm 26 [0] true]⟩),
  (26, ⟨2, true, [.arm 2 [0, 1] false, .arm 25 [0] true]⟩),
  (25, ⟨2, true, [.arm 2 [0, 1] false, .arm 24 [0] true]⟩),
  (24, ⟨2, true, [.arm 2 [0, 1] false, .arm 23 [0] true]⟩),
  (23, ⟨2, true, [.arm 2 [0, 1] false, .arm 22 [0] true]⟩),
  (22, ⟨2, true, [.arm 2 [0, 1] false, .arm 21 [0] true]⟩),
  (21, ⟨2, true, [.arm 2 [0, 1] false, .arm 20 [0] true]⟩),
  (20, ⟨2, true, [.arm 2 [0, 1] false, .arm 19 [0] true]⟩),
  (19, ⟨2, true, [.arm 2 [0, 1] false, .arm 18 [0] true]⟩),
  (18, ⟨2, true, [.arm 2 [0, 1] false, .arm 17 [0] true]⟩),
  (17, ⟨2, true, [.arm 2 [0, 1] false, .arm 16 [0] true]⟩),
  (16, ⟨2, true, [.arm 2 [0, 1] false, .arm 15 [0] true]⟩),
  (15, ⟨2, true, [.arm 2 [0, 1] false, .arm 14 [0] true]⟩),
  (14, ⟨2, true, [.arm 2 [0, 1] false, .arm 13 [0] true]⟩),
  (13, ⟨2, true, [.arm 2 [0, 1] false, .arm 12 [0] true]⟩),
  (12, ⟨2, true, [.arm 2 [0, 1] false, .arm 11 [0] true]⟩),
  (11, ⟨2, true, [.arm 2 [0, 1] false, .arm 10 [0] true]⟩),
  (10, ⟨2, true, [.arm 2 [0, 1] false, .arm 9 [0] true]⟩),
  (9, ⟨2, true, [.arm 2 [0, 1] false, .arm 8 [0] true]⟩),
  (8, ⟨2, true, [.arm 2 [0, 1] false, .arm 7 [0] true]⟩),
  (7, ⟨2, true, [.arm 2 [0, 1] false, .arm 6 [0] true]⟩),
  (6, ⟨2, true, [.arm 2 [0, 1] false, .arm 5 [0] true]⟩),
  (5, ⟨2, true, [.arm 2 [0, 1] false, .arm 4 [0] true]⟩),
  (4, ⟨2, true, [.arm 2 [0, 1] false, .arm 3 [0] true]⟩),
  (3, ⟨2, true, [.arm 2 [0, 1] false, .arm 2 [0] true]⟩),
  (2, ⟨2, false, [.tok .memberName, .tok .lpar, .par 0, .tok .comma, .par 1, .tok .rpar, .tok .semi]⟩)]

/-- The macros `NBDL_MEMBER_IDS63` to `NBDL_MEMBER_IDS3`, `/repo/include/nbdl/macros/NBDL_MEMBER_IDS.hpp` 19–139, in the order of the file. -/
def memberIds : Family := [
  (63, ⟨3, true, [.tok .memberId, .tok .lpar, .tok .amp, .par 0, .tok .colons, .par 2, .tok .comma, .par 1, .tok .minus, .tok (.num 61), .tok .rpar, .arm 62 [0, 1] true]⟩),
  (62, ⟨3, true, [.tok .memberId, .tok .lpar, .tok .amp, .par 0, .tok .colons, .par 2, .tok .comma, .par 1, .tok .minus, .tok (.num 60), .tok .rpar, .arm 61 [0, 1] true]⟩),
  (61, ⟨3, true, [.tok .memberId, .tok .lpar, .tok .amp, .par 0, .tok .colons, .par 2, .tok .comma, .par 1, .tok .minus, .tok (.num 59), .tok .rpar, .arm 60 [0, 1] true]⟩),
  (60, ⟨3, true, [.tok .memberId, .tok .lpar, .tok .amp, .par 0, .tok .colons, .par 2, .tok .comma, .par 1, .tok .minus, .tok (.num 58), .tok .rpar, .arm 59 [0, 1] true]⟩),
  (59, ⟨3, true, [.tok .memberId, .tok .lpar, .tok .amp, .par 0, .tok .colons, .par 2, .tok .comma, .par 1, .tok .minus, .tok (.num 57), .tok .rpar, .arm 58 [0, 1] true]⟩),
  (58, ⟨3, true, [.tok .memberId, .tok .lpar, .tok .amp, .par 0, .tok .colons, .par 2, .tok .comma, .par 1, .tok .minus, .tok (.num 56), .tok .rpar, .arm 57 [0, 1] true]⟩),
  (57, ⟨3, true, [.tok .memberId, .tok .lpar, .tok .amp, .par 0, .tok .colons, .par 2, .tok .comma, .par 1, .tok .minus, .tok (.num 55), .tok .rpar, .arm 56 [0, 1] true]⟩),
  (56, ⟨3, true, [.tok .memberId, .tok .lpar, .tok .amp, .par 0, .tok .colons, .par 2, .tok .comma, .par 1, .tok .minus, .tok (.num 54), .tok .rpar, .arm 55 [0, 1] true]⟩),
  (55, ⟨3, true, [.tok .memberId, .tok .lpar, .tok .amp, .par 0, .tok .colons, .par 2, .tok .comma, .par 1, .tok .minus, .tok (.num 53), .tok .rpar, .arm 54 [0, 1] true]⟩),
  (54, ⟨3, true, [.tok .memberId, .tok .lpar, .tok .amp, .par 0, .tok .colons, .par 2, .tok .comma, .par 1, .tok .minus, .tok (.num 52), .tok .rpar, .arm 53 [0, 1] true]⟩),
  (53, ⟨3, true, [.tok .memberId, .tok .lpar, .tok .amp, .par 0, .tok .colons, .par 2, .tok .comma, .par 1, .tok .minus, .tok (.num 51), .tok .rpar, .arm 52 [0, 1] true]⟩),
  (52, ⟨3, true, [.tok .memberId, .tok .lpar, .tok .amp, .par 0, .tok .colons, .par 2, .tok .comma, .par 1, .tok .minus, .tok (.num 50), .tok .rpar, .arm 51 [0, 1] true]⟩),
  (51, ⟨3, true, [.tok .memberId, .tok .lpar, .tok .amp, .par 0, .tok .colons, .par 2, .tok .comma, .par 1, .tok .minus, .tok (.num 49), .tok .rpar, .arm 50 [0, 1] true]⟩),
  (50, ⟨3, true, [.tok .memberId, .tok .lpar, .tok .amp, .par 0, .tok .colons, .par 2, .tok .comma, .par 1, .tok .minus, .tok (.num 48), .tok .rpar, .arm 49 [0, 1] true]⟩),
  (49, ⟨3, true, [.tok .memberId, .tok .lpar, .tok .amp, .par 0, .tok .colons, .par 2, .tok .comma, .par 1, .tok .minus, .tok (.num 47), .tok .rpar, .arm 48 [0, 1] true]⟩),
  (48, ⟨3, true, [.tok .memberId, .tok .lpar, .tok .amp, .par 0, .tok .colons, .par 2, .tok .comma, .par 1, .tok .minus, .tok (.num 46), .tok .rpar, .arm 47 [0, 1] true]⟩),
  (47, ⟨3, true, [.tok .memberId, .tok .lpar, .tok .amp, .par 0, .tok .colons, .par 2, .tok .comma, .par 1, .tok .minus, .tok (.num 45), .tok .rpar, .arm 46 [0, 1] true]⟩),
  (46, ⟨3, true, [.tok .memberId, .tok .lpar, .tok .amp, .par 0, .tok .colons, .par 2, .tok .comma, .par 1, .tok .minus, .tok (.num 44), .tok .rpar, .arm 45 [0, 1] true]⟩),
  (45, ⟨3, true, [.tok .memberId, .tok .lpar, .tok .amp, .par 0, .tok .colons, .par 2, .tok .comma, .par 1, .tok .minus, .tok (.num 43), .tok .rpar, .arm 44 [0, 1] true]⟩),
  (44, ⟨3, true, [.tok .memberId, .tok .lpar, .tok .amp, .par 0, .tok .colons, .par 2, .tok .comma, .par 1, .tok .minus, .tok (.num 42), .tok .rpar, .arm 43 [0, 1] true]⟩),
  (43, ⟨3, true, [.tok .memberId, .tok .lpar, .tok .amp, .par 0, .tok .colons, .par 2, .tok .comma, .par 1, .tok .minus, .tok (.num 41), .tok .rpar, .arm 42 [0, 1] true]⟩),
  (42, ⟨3, true, [.tok .memberId, .tok .lpar, .tok .amp, .par 0, .tok .colons, .par 2, .tok .comma, .par 1, .tok .minus, .tok (.num 40), .tok .rpar, .arm 41 [0, 1] true]⟩),
  (41, ⟨3, true, [.tok .memberId, .tok .lpar, .tok .amp, .par 0, .tok .colons, .par 2, .tok .comma, .par 1, .tok .minus, .tok (.num 39), .tok .rpar, .arm 40 [0, 1] true]⟩),
  (40, ⟨3, true, [.tok .memberId, .tok .lpar, .tok .amp, .par 0, .tok .colons, .par 2, .tok .comma, .par 1, .tok .minus, .tok (.num 38), .tok .rpar, .arm 39 [0, 1] true]⟩),
  (39, ⟨3, true, [.tok .memberId, .tok .lpar, .tok .amp, .par 0, .tok .colons, .par 2, .tok .comma, .par 1, .tok .minus, .tok (.num 37), .tok .rpar, .arm 38 [0, 1] true]⟩),
  (38, ⟨3, true, [.tok .memberId, .tok .lpar, .tok .amp, .par 0, .tok .colons, .par 2, .tok .comma, .par 1, .tok .minus, .tok (.num 36), .tok .rpar, .arm 37 [0, 1] true]⟩),
  (37, ⟨3, true, [.tok .memberId, .tok .lpar, .tok .amp, .par 0, .tok .colons, .par 2, .tok .comma, .par 1, .tok .minus, .tok (.num 35), .tok .rpar, .arm 36 [0, 1] true]⟩),
  (36, ⟨3, true, [.tok .memberId, .tok .lpar, .tok .amp, .par 0, .tok .colons, .par 2, .tok .comma, .par 1, .tok .minus, .tok (.num 34), .tok .rpar, .arm 35 [0, 1] true]⟩),
  (35, ⟨3, true, [.tok .memberId, .tok .lpar, .tok .amp, .par 0, .tok .colons, .par 2, .tok .comma, .par 1, .tok .minus, .tok (.num 33), .tok .rpar, .arm 34 [0, 1] true]⟩),
  (34, ⟨3, true, [.tok .memberId, .tok .lpar, .tok .amp, .par 0, .tok .colons, .par 2, .tok .comma, .par 1, .tok .minus, .tok (.num 32), .tok .rpar, .arm 33 [0, 1] true]⟩),
  (33, ⟨3, true, [.tok .memberId, .tok .lpar, .tok .amp, .par 0, .tok .colons, .par 2, .tok .comma, .par 1, .tok .minus, .tok (.num 31), .tok .rpar, .arm 32 [0, 1] true]⟩),
  (32, ⟨3, true, [.tok .memberId, .tok .lpar, .tok .amp, .par 0, .tok .colons, .par 2, .tok .comma, .par 1, .tok .minus, .tok (.num 30), .tok .rpar, .arm 31 [0, 1] true]⟩),
  (31, ⟨3, true, [.tok .memberId, .tok .lpar, .tok .amp, .par 0, .tok .colons, .par 2, .tok .comma, .par 1, .tok .minus, .tok (.num 29), .tok .rpar, .arm 30 [0, 1] true]⟩),
  (30, ⟨3, true, [.tok .memberId, .tok .lpar, .tok .amp, .par 0, .tok .colons, .par 2, .tok .comma, .par 1, .tok .minus, .tok (.num 28), .tok .rpar, .arm 29 [0, 1] true]⟩),
  (29, ⟨3, true, [.tok .memberId, .tok .lpar, .tok .amp, .par 0, .tok .colons, .par 2, .tok .comma, .par 1, .tok .minus, .tok (.num 27), .tok .rpar, .arm 28 [0, 1] true]⟩),
  (28, ⟨3, true, [.tok .memberId, .tok .lpar, .tok .amp, .par 0, .tok .colons, .par 2, .tok .comma, .par 1, .tok .minus, .tok (.num 26), .tok .rpar, .arm 27 [0, 1] true]⟩),
  (27, ⟨3, true, [.tok .memberId, .tok .lpar, .tok .amp, .par 0, .tok .colons, .par 2, .tok .comma, .par 1, .tok .minus, .tok (.num 25), .tok .rpar, .arm 26 [0, 1] true]⟩),
  (26, ⟨3, true, [.tok .memberId, .tok .lpar, .tok .amp, .par 0, .tok .colons, .par 2, .tok .comma, .par 1, .tok .minus, .tok (.num 24), .tok .rpar, .arm 25 [0, 1] true]⟩),
  (25, ⟨3, true, [.tok .memberId, .tok .lpar, .tok .amp, .par 0, .tok .colons, .par 2, .tok .comma, .par 1, .tok .minus, .tok (.num 23), .tok .rpar, .arm 24 [0, 1] true]⟩),
  (24, ⟨3, true, [.tok .memberId, .tok .lpar, .tok .amp, .par 0, .tok .colons, .par 2, .tok .comma, .par 1, .tok .minus, .tok (.num 22), .tok .rpar, .arm 23 [0, 1] true]⟩),
  (23, ⟨3, true, [.tok .memberId, .tok .lpar, .tok .amp, .par 0, .tok .colons, .par 2, .tok .comma, .par 1, .tok .minus, .tok (.num 21), .tok .rpar, .arm 22 [0, 1] true]⟩),
  (22, ⟨3, true, [.tok .memberId, .tok .lpar, .tok .amp, .par 0, .tok .colons, .par 2, .tok .comma, .par 1, .tok .minus, .tok (.num 20), .tok .rpar, .arm 21 [0, 1] true]⟩),
  (21, ⟨3, true, [.tok .memberId, .tok .lpar, .tok .amp, .par 0, .tok .colons, .par 2, .tok .comma, .par 1, .tok .minus, .tok (.num 19), .tok .rpar, .arm 20 [0, 1] true]⟩),
  (20, ⟨3, true, [.tok .memberId, .tok .lpar, .tok .amp, .par 0, .tok .colons, .par 2, .tok .comma, .par 1, .tok .minus, .tok (.num 18), .tok .rpar, .arm 19 [0, 1] true]⟩),
  (19, ⟨3, true, [.tok .memberId, .tok .lpar, .tok .amp, .par 0, .tok .colons, .par 2, .tok .comma, .par 1, .tok .minus, .tok (.num 17), .tok .rpar, .arm 18 [0, 1] true]⟩),
  (18, ⟨3, true, [.tok .memberId, .tok .lpar, .tok .amp, .par 0, .tok .colons, .par 2, .tok .comma, .par 1, .tok .minus, .tok (.num 16), .tok .rpar, .arm 17 [0, 1] true]⟩),
  (17, ⟨3, true, [.tok .memberId, .tok .lpar, .tok .amp, .par 0, .tok .colons, .par 2, .tok .comma, .par 1, .tok .minus, .tok (.num 15), .tok .rpar, .arm 16 [0, 1] true]⟩),
  (16, ⟨3, true, [.tok .memberId, .tok .lpar, .tok .amp, .par 0, .tok .colons, .par 2, .tok .comma, .par 1, .tok .minus, .tok (.num 14), .tok .rpar, .arm 15 [0, 1] true]⟩),
  (15, ⟨3, true, [.tok .memberId, .tok .lpar, .tok .amp, .par 0, .tok .colons, .par 2, .tok .comma, .par 1, .tok .minus, .tok (.num 13), .tok .rpar, .arm 14 [0, 1] true]⟩),
  (14, ⟨3, true, [.tok .memberId, .tok .lpar, .tok .amp, .par 0, .tok .colons, .par 2, .tok .comma, .par 1, .tok .minus, .tok (.num 12), .tok .rpar, .arm 13 [0, 1] true]⟩),
  (13, ⟨3, true, [.tok .memberId, .tok .lpar, .tok .amp, .par 0, .tok .colons, .par 2, .tok .comma, .par 1, .tok .minus, .tok (.num 11), .tok .rpar, .arm 12 [0, 1] true]⟩),
  (12, ⟨3, true, [.tok .memberId, .tok .lpar, .tok .amp, .par 0, .tok .colons, .par 2, .tok .comma, .par 1, .tok .minus, .tok (.num 10), .tok .rpar, .arm 11 [0, 1] true]⟩),
  (11, ⟨3, true, [.tok .memberId, .tok .lpar, .tok .amp, .par 0, .tok .colons, .par 2, .tok .comma, .par 1, .tok .minus, .tok (.num 9), .tok .rpar, .arm 10 [0, 1] true]⟩),
  (10, ⟨3, true, [.tok .memberId, .tok .lpar, .tok .amp, .par 0, .tok .colons, .par 2, .tok .comma, .par 1, .tok .minus, .tok (.num 8), .tok .rpar, .arm 9 [0, 1] true]⟩),
  (9, ⟨3, true, [.tok .memberId, .tok .lpar, .tok .amp, .par 0, .tok .colons, .par 2, .tok .comma, .par 1, .tok .minus, .tok (.num 7), .tok .rpar, .arm 8 [0, 1] true]⟩),
  (8, ⟨3, true, [.tok .memberId, .tok .lpar, .tok .amp, .par 0, .tok .colons, .par 2, .tok .comma, .par 1, .tok .minus, .tok (.num 6), .tok .rpar, .arm 7 [0, 1] true]⟩),
  (7, ⟨3, true, [.tok .memberId, .tok .lpar, .tok .amp, .par 0, .tok .colons, .par 2, .tok .comma, .par 1, .tok .minus, .tok (.num 5), .tok .rpar, .arm 6 [0, 1] true]⟩),
  (6, ⟨3, true, [.tok .memberId, .tok .lpar, .tok .amp, .par 0, .tok .colons, .par 2, .tok .comma, .par 1, .tok .minus, .tok (.num 4), .tok .rpar, .arm 5 [0, 1] true]⟩),
  (5, ⟨3, true, [.tok .memberId, .tok .lpar, .tok .amp, .par 0, .tok .colons, .par 2, .tok .comma, .par 1, .tok .minus, .tok (.num 3), .tok .rpar, .arm 4 [0, 1] true]⟩),
  (4, ⟨3, true, [.tok .memberId, .tok .lpar, .tok .amp, .par 0, .tok .colons, .par 2, .tok .comma, .par 1, .tok .minus, .tok (.num 2), .tok .rpar, .arm 3 [0, 1] true]⟩),
  (3, ⟨3, true, [.tok .memberId, .tok .lpar, .tok .amp, .par 0, .tok .colons, .par 2, .tok .comma, .par 1, .tok .minus, .tok (.num 1), .tok .rpar]⟩)]

/-- The macros `_MPDEF_METASTRUCT_KEYS63` to `_MPDEF_METASTRUCT_KEYS1`, `/repo/include/mpdef/details/_MPDEF_METASTRUCT_KEYS.hpp` 16–203, in the order of the file. -/
def keys : Family := [
  (63, ⟨1, true, [.tok .kwStatic, .tok .kwConstexpr, .tok .kwAuto, .par 0, .tok .eq, .tok .atC, .tok .lt, .tok .length, .tok .minus, .tok (.num 63), .tok .gt, .tok .semi, .arm 62 [] true]⟩),
  (62, ⟨1, true, [.tok .kwStatic, .tok .kwConstexpr, .tok .kwAuto, .par 0, .tok .eq, .tok .atC, .tok .lt, .tok .length, .tok .minus, .tok (.num 62), .tok .gt, .tok .semi, .arm 61 [] true]⟩),
  (61, ⟨1, true, [.tok .kwStatic, .tok .kwConstexpr, .tok .kwAuto, .par 0, .tok .eq, .tok .atC, .tok .lt, .tok .length, .tok .minus, .tok (.num 61), .tok .gt, .tok .semi, .arm 60 [] true]⟩),
  (60, ⟨1, true, [.tok .kwStatic, .tok .kwConstexpr, .tok .kwAuto, .par 0, .tok .eq, .tok .atC, .tok .lt, .tok .length, .tok .minus, .tok (.num 60), .tok .gt, .tok .semi, .arm 59 [] true]⟩),
  (59, ⟨1, true, [.tok .kwStatic, .tok .kwConstexpr, .tok .kwAuto, .par 0, .tok .eq, .tok .atC, .tok .lt, .tok .length, .tok .minus, .tok (.num 59), .tok .gt, .tok .semi, .arm 58 [] true]⟩),
  (58, ⟨1, true, [.tok .kwStatic, .tok .kwConstexpr, .tok .kwAuto, .par 0, .tok .eq, .tok .atC, .tok .lt, .tok .length, .tok .minus, .tok (.num 58), .tok .gt, .tok .semi, .arm 57 [] true]⟩),
  (57, ⟨1, true, [.tok .kwStatic, .tok .kwConstexpr, .tok .kwAuto, .par 0, .tok .eq, .tok .atC, .tok .lt, .tok .length, .tok .minus, .tok (.num 57), .tok .gt, .tok .semi, .arm 56 [] true]⟩),
  (56, ⟨1, true, [.tok .kwStatic, .tok .kwConstexpr, .tok .kwAuto, .par 0, .tok .eq, .tok .atC, .tok .lt, .tok .length, .tok .minus, .tok (.num 56), .tok .gt, .tok .semi, .arm 55 [] true]⟩),
  (55, ⟨1, true, [.tok .kwStatic, .tok .kwConstexpr, .tok .kwAuto, .par 0, .tok .eq, .tok .atC, .tok .lt, .tok .length, .tok .minus, .tok (.num 55), .tok .gt, .tok .semi, .arm 54 [] true]⟩),
  (54, ⟨1, true, [.tok .kwStatic, .tok .kwConstexpr, .tok .kwAuto, .par 0, .tok .eq, .tok .atC, .tok .lt, .tok .length, .tok .minus, .tok (.num 54), .tok .gt, .tok .semi, .arm 53 [] true]⟩),
  (53, ⟨1, true, [.tok .kwStatic, .tok .kwConstexpr, .tok .kwAuto, .par 0, .tok .eq, .tok .atC, .tok .lt, .tok .length, .tok .minus, .tok (.num 53), .tok .gt, .tok .semi, .arm 52 [] true]⟩),
  (52, ⟨1, true, [.tok .kwStatic, .tok .kwConstexpr, .tok .kwAuto, .par 0, .tok .eq, .tok .atC, .tok .lt, .tok .length, .tok .minus, .tok (.num 52), .tok .gt, .tok .semi, .arm 51 [] true]⟩),
  (51, ⟨1, true, [.tok .kwStatic, .tok .kwConstexpr, .tok .kwAuto, .par 0, .tok .eq, .tok .atC, .tok .lt, .tok .length, .tok .minus, .tok (.num 51), .tok .gt, .tok .semi, .arm 50 [] true]⟩),
  (50, ⟨1, true, [.tok .kwStatic, .tok .kwConstexpr, .tok .kwAuto, .par 0, .tok .eq, .tok .atC, .tok .lt, .tok .length, .tok .minus, .tok (.num 50), .tok .gt, .tok .semi, .arm 49 [] true]⟩),
  (49, ⟨1, true, [.tok .kwStatic, .tok .kwConstexpr, .tok .kwAuto, .par 0, .tok .eq, .tok .atC, .tok .lt, .tok .length, .tok .minus, .tok (.num 49), .tok .gt, .tok .semi, .arm 48 [] true]⟩),
  (48, ⟨1, true, [.tok .kwStatic, .tok .kwConstexpr, .tok .kwAuto, .par 0, .tok .eq, .tok .atC, .tok .lt, .tok .length, .tok .minus, .tok (.num 48), .tok .gt, .tok .semi, .arm 47 [] true]⟩),
  (47, ⟨1, true, [.tok .kwStatic, .tok .kwConstexpr, .tok .kwAuto, .par 0, .tok .eq, .tok .atC, .tok .lt, .tok .length, .tok .minus, .tok (.num 47), .tok .gt, .tok .semi, .arm 46 [] true]⟩),
  (46, ⟨1, true, [.tok .kwStatic, .tok .kwConstexpr, .tok .kwAuto, .par 0, .tok .eq, .tok .atC, .tok .lt, .tok .length, .tok .minus, .tok (.num 46), .tok .gt, .tok .semi, .arm 45 [] true]⟩),
  (45, ⟨1, true, [.tok .kwStatic, .tok .kwConstexpr, .tok .kwAuto, .par 0, .tok .eq, .tok .atC, .tok .lt, .tok .length, .tok .minus, .tok (.num 45), .tok .gt, .tok .semi, .arm 44 [] true]⟩),
  (44, ⟨1, true, [.tok .kwStatic, .tok .kwConstexpr, .tok .kwAuto, .par 0, .tok .eq, .tok .atC, .tok .lt, .tok .length, .tok .minus, .tok (.num 44), .tok .gt, .tok .semi, .arm 43 [] true]⟩),
  (43, ⟨1, true, [.tok .kwStatic, .tok .kwConstexpr, .tok .kwAuto, .par 0, .tok .eq, .tok .atC, .tok .lt, .tok .length, .tok .minus, .tok (.num 43), .tok .gt, .tok .semi, .arm 42 [] true]⟩),
  (42, ⟨1, true, [.tok .kwStatic, .tok .kwConstexpr, .tok .kwAuto, .par 0, .tok .eq, .tok .atC, .tok .lt, .tok .length, .tok .minus, .tok (.num 42), .tok .gt, .tok .semi, .arm 41 [] true]⟩),
  (41, ⟨1, true, [.tok .kwStatic, .tok .kwConstexpr, .tok .kwAuto, .par 0, .tok .eq, .tok .atC, .tok .lt, .tok .length, .tok .minus, .tok (.num 41), .tok .gt, .tok .semi, .arm 40 [] true]⟩),
  (40, ⟨1, true, [.tok .kwStatic, .tok .kwConstexpr, .tok .kwAuto, .par 0, .tok .eq, .tok .atC, .tok .lt, .tok .length, .tok .minus, .tok (.num 40), .tok .gt, .tok .semi, .arm 39 [] true]⟩),
  (39, ⟨1, true, [.tok .kwStatic, .tok .kwConstexpr, .tok .kwAuto, .par 0, .tok .eq, .tok .atC, .tok .lt, .tok .length, .tok .minus, .tok (.num 39), .tok .gt, .tok .semi, .arm 38 [] true]⟩),
  (38, ⟨1, true, [.tok .kwStatic, .tok .kwConstexpr, .tok .kwAuto, .par 0, .tok .eq, .tok .atC, .tok .lt, .tok .length, .tok .minus, .tok (.num 38), .tok .gt, .tok .semi, .arm 37 [] true]⟩),
  (37, ⟨1, true, [.tok .kwStatic, .tok .kwConstexpr, .tok .kwAuto, .par 0, .tok .eq, .tok .atC, .tok .lt, .tok .length, .tok .minus, .tok (.num 37), .tok .gt, .tok .semi, .arm 36 [] true]⟩),
  (36, ⟨1, true, [.tok .kwStatic, .tok .kwConstexpr, .tok .kwAuto, .par 0, .tok .eq, .tok .atC, .tok .lt, .tok .length, .tok .minus, .tok (.num 36), .tok .gt, .tok .semi, .arm 35 [] true]⟩),
  (35, ⟨1, true, [.tok .kwStatic, .tok .kwConstexpr, .tok .kwAuto, .par 0, .tok .eq, .tok .atC, .tok .lt, .tok .length, .tok .minus, .tok (.num 35), .tok .gt, .tok .semi, .arm 34 [] true]⟩),
  (34, ⟨1, true, [.tok .kwStatic, .tok .kwConstexpr, .tok .kwAuto, .par 0, .tok .eq, .tok .atC, .tok .lt, .tok .length, .tok .minus, .tok (.num 34), .tok .gt, .tok .semi, .arm 33 [] true]⟩),
  (33, ⟨1, true, [.tok .kwStatic, .tok .kwConstexpr, .tok .kwAuto, .par 0, .tok .eq, .tok .atC, .tok .lt, .tok .length, .tok .minus, .tok (.num 33), .tok .gt, .tok .semi, .arm 32 [] true]⟩),
  (32, ⟨1, true, [.tok .kwStatic, .tok .kwConstexpr, .tok .kwAuto, .par 0, .tok .eq, .tok .atC, .tok .lt, .tok .length, .tok .minus, .tok (.num 32), .tok .gt, .tok .semi, .arm 31 [] true]⟩),
  (31, ⟨1, true, [.tok .kwStatic, .tok .kwConstexpr, .tok .kwAuto, .par 0, .tok .eq, .tok .atC, .tok .lt, .tok .length, .tok .minus, .tok (.num 31), .tok .gt, .tok .semi, .arm 30 [] true]⟩),
  (30, ⟨1, true, [.tok .kwStatic, .tok .kwConstexpr, .tok .kwAuto, .par 0, .tok .eq, .tok .atC, .tok .lt, .tok .length, .tok .minus, .tok (.num 30), .tok .gt, .tok .semi, .arm 29 [] true]⟩),
  (29, ⟨1, true, [.tok .kwStatic, .tok .kwConstexpr, .tok .kwAuto, .par 0, .tok .eq, .tok .atC, .tok .lt, .tok .length, .tok .minus, .tok (.num 29), .tok .gt, .tok .semi, .arm 28 [] true]⟩),
  (28, ⟨1, true, [.tok .kwStatic, .tok .kwConstexpr, .tok .kwAuto, .par 0, .tok .eq, .tok .atC, .tok .lt, .tok .length, .tok .minus, .tok (.num 28), .tok .gt, .tok .semi, .arm 27 [] true]⟩),
  (27, ⟨1, true, [.tok .kwStatic, .tok .kwConstexpr, .tok .kwAuto, .par 0, .tok .eq, .tok .atC, .tok .lt, .tok .length, .tok .minus, .tok (.num 27), .tok .gt, .tok .semi, .arm 26 [] true]⟩),
  (26, ⟨1, true, [.tok .kwStatic, .tok .kwConstexpr, .tok .kwAuto, .par 0, .tok .eq, .tok .atC, .tok .lt, .tok .length, .tok .minus, .tok (.num 26), .tok .gt, .tok .semi, .arm 25 [] true]⟩),
  (25, ⟨1, true, [.tok .kwStatic, .tok .kwConstexpr, .tok .kwAuto, .par 0, .tok .eq, .tok .atC, .tok .lt, .tok .length, .tok .minus, .tok (.num 25), .tok .gt, .tok .semi, .arm 24 [] true]⟩),
  (24, ⟨1, true, [.tok .kwStatic, .tok .kwConstexpr, .tok .kwAuto, .par 0, .tok .eq, .tok .atC, .tok .lt, .tok .length, .tok .minus, .tok (.num 24), .tok .gt, .tok .semi, .arm 23 [] true]⟩),
  (23, ⟨1, true, [.tok .kwStatic, .tok .kwConstexpr, .tok .kwAuto, .par 0, .tok .eq, .tok .atC, .tok .lt, .tok .length, .tok .minus, .tok (.num 23), .tok .gt, .tok .semi, .arm 22 [] true]⟩),
  (22, ⟨1, true, [.tok .kwStatic, .tok .kwConstexpr, .tok .kwAuto, .par 0, .tok .eq, .tok .atC, .tok .lt, .tok .length, .tok .minus, .tok (.num 22), .tok .gt, .tok .semi, .arm 21 [] true]⟩),
  (21, ⟨1, true, [.tok .kwStatic, .tok .kwConstexpr, .tok .kwAuto, .par 0, .tok .eq, .tok .atC, .tok .lt, .tok .length, .tok .minus, .tok (.num 21), .tok .gt, .tok .semi, .arm 20 [] true]⟩),
  (20, ⟨1, true, [.tok .kwStatic, .tok .kwConstexpr, .tok .kwAuto, .par 0, .tok .eq, .tok .atC, .tok .lt, .tok .length, .tok .minus, .tok (.num 20), .tok .gt, .tok .semi, .arm 19 [] true]⟩),
  (19, ⟨1, true, [.tok .kwStatic, .tok .kwConstexpr, .tok .kwAuto, .par 0, .tok .eq, .tok .atC, .tok .lt, .tok .length, .tok .minus, .tok (.num 19), .tok .gt, .tok .semi, .arm 18 [] true]⟩),
  (18, ⟨1, true, [.tok .kwStatic, .tok .kwConstexpr, .tok .kwAuto, .par 0, .tok .eq, .tok .atC, .tok .lt, .tok .length, .tok .minus, .tok (.num 18), .tok .gt, .tok .semi, .arm 17 [] true]⟩),
  (17, ⟨1, true, [.tok .kwStatic, .tok .kwConstexpr, .tok .kwAuto, .par 0, .tok .eq, .tok .atC, .tok .lt, .tok .length, .tok .minus, .tok (.num 17), .tok .gt, .tok .semi, .arm 16 [] true]⟩),
  (16, ⟨1, true, [.tok .kwStatic, .tok .kwConstexpr, .tok .kwAuto, .par 0, .tok .eq, .tok .atC, .tok .lt, .tok .length, .tok .minus, .tok (.num 16), .tok .gt, .tok .semi, .arm 15 [] true]⟩),
  (15, ⟨1, true, [.tok .kwStatic, .tok .kwConstexpr, .tok .kwAuto, .par 0, .tok .eq, .tok .atC, .tok .lt, .tok .length, .tok .minus, .tok (.num 15), .tok .gt, .tok .semi, .arm 14 [] true]⟩),
  (14, ⟨1, true, [.tok .kwStatic, .tok .kwConstexpr, .tok .kwAuto, .par 0, .tok .eq, .tok .atC, .tok .lt, .tok .length, .tok .minus, .tok (.num 14), .tok .gt, .tok .semi, .arm 13 [] true]⟩),
  (13, ⟨1, true, [.tok .kwStatic, .tok .kwConstexpr, .tok .kwAuto, .par 0, .tok .eq, .tok .atC, .tok .lt, .tok .length, .tok .minus, .tok (.num 13), .tok .gt, .tok .semi, .arm 12 [] true]⟩),
  (12, ⟨1, true, [.tok .kwStatic, .tok .kwConstexpr, .tok .kwAuto, .par 0, .tok .eq, .tok .atC, .tok .lt, .tok .length, .tok .minus, .tok (.num 12), .tok .gt, .tok .semi, .arm 11 [] true]⟩),
  (11, ⟨1, true, [.tok .kwStatic, .tok .kwConstexpr, .tok .kwAuto, .par 0, .tok .eq, .tok .atC, .tok .lt, .tok .length, .tok .minus, .tok (.num 11), .tok .gt, .tok .semi, .arm 10 [] true]⟩),
  (10, ⟨1, true, [.tok .kwStatic, .tok .kwConstexpr, .tok .kwAuto, .par 0, .tok .eq, .tok .atC, .tok .lt, .tok .length, .tok .minus, .tok (.num 10), .tok .gt, .tok .semi, .arm 9 [] true]⟩),
  (9, ⟨1, true, [.tok .kwStatic, .tok .kwConstexpr, .tok .kwAuto, .par 0, .tok .eq, .tok .atC, .tok .lt, .tok .length, .tok .minus, .tok (.num 9), .tok .gt, .tok .semi, .arm 8 [] true]⟩),
  (8, ⟨1, true, [.tok .kwStatic, .tok .kwConstexpr, .tok .kwAuto, .par 0, .tok .eq, .tok .atC, .tok .lt, .tok .length, .tok .minus, .tok (.num 8), .tok .gt, .tok .semi, .arm 7 [] true]⟩),
  (7, ⟨1, true, [.tok .kwStatic, .tok .kwConstexpr, .tok .kwAuto, .par 0, .tok .eq, .tok .atC, .tok .lt, .tok .length, .tok .minus, .tok (.num 7), .tok .gt, .tok .semi, .arm 6 [] true]⟩),
  (6, ⟨1, true, [.tok .kwStatic, .tok .kwConstexpr, .tok .kwAuto, .par 0, .tok .eq, .tok .atC, .tok .lt, .tok .length, .tok .minus, .tok (.num 6), .tok .gt, .tok .semi, .arm 5 [] true]⟩),
  (5, ⟨1, true, [.tok .kwStatic, .tok .kwConstexpr, .tok .kwAuto, .par 0, .tok .eq, .tok .atC, .tok .lt, .tok .length, .tok .minus, .tok (.num 5), .tok .gt, .tok .semi, .arm 4 [] true]⟩),
  (4, ⟨1, true, [.tok .kwStatic, .tok .kwConstexpr, .tok .kwAuto, .par 0, .tok .eq, .tok .atC, .tok .lt, .tok .length, .tok .minus, .tok (.num 4), .tok .gt, .tok .semi, .arm 3 [] true]⟩),
  (3, ⟨1, true, [.tok .kwStatic, .tok .kwConstexpr, .tok .kwAuto, .par 0, .tok .eq, .tok .atC, .tok .lt, .tok .length, .tok .minus, .tok (.num 3), .tok .gt, .tok .semi, .arm 2 [] true]⟩),
  (2, ⟨1, true, [.tok .kwStatic, .tok .kwConstexpr, .tok .kwAuto, .par 0, .tok .eq, .tok .atC, .tok .lt, .tok .length, .tok .minus, .tok (.num 2), .tok .gt, .tok .semi, .arm 1 [] true]⟩),
  (1, ⟨1, true, [.tok .kwStatic, .tok .kwConstexpr, .tok .kwAuto, .par 0, .tok .eq, .tok .atC, .tok .lt, .tok .length, .tok .minus, .tok (.num 1), .tok .gt, .tok .semi]⟩)]

/-- The macros `_MPDEF_METASTRUCT_SPEC_NAMES63` to `_MPDEF_METASTRUCT_SPEC_NAMES1`, `/repo/include/mpdef/details/_MPDEF_METASTRUCT_SPEC_NAMES.hpp` 14–201, in the order of the file. -/
def specNames : Family := [
  (63, ⟨1, true, [.par 0, .tok .comma, .arm 62 [] true]⟩),
  (62, ⟨1, true, [.par 0, .tok .comma, .arm 61 [] true]⟩),
  (61, ⟨1, true, [.par 0, .tok .comma, .arm 60 [] true]⟩),
  (60, ⟨1, true, [.par 0, .tok .comma, .arm 59 [] true]⟩),
  (59, ⟨1, true, [.par 0, .tok .comma, .arm 58 [] true]⟩),
  (58, ⟨1, true, [.par 0, .tok .comma, .arm 57 [] true]⟩),
  (57, ⟨1, true, [.par 0, .tok .comma, .arm 56 [] true]⟩),
  (56, ⟨1, true, [.par 0, .tok .comma, .arm 55 [] true]⟩),
  (55, ⟨1, true, [.par 0, .tok .comma, .arm 54 [] true]⟩),
  (54, ⟨1, true, [.par 0, .tok .comma, .arm 53 [] true]⟩),
  (53, ⟨1, true, [.par 0, .tok .comma, .arm 52 [] true]⟩),
  (52, ⟨1, true, [.par 0, .tok .comma, .arm 51 [] true]⟩),
  (51, ⟨1, true, [.par 0, .tok .comma, .arm 50 [] true]⟩),
  (50, ⟨1, true, [.par 0, .tok .comma, .arm 49 [] true]⟩),
  (49, ⟨1, true, [.par 0, .tok .comma, .arm 48 [] true]⟩),
  (48, ⟨1, true, [.par 0, .tok .comma, .arm 47 [] true]⟩),
  (47, ⟨1, true, [.par 0, .tok .comma, .arm 46 [] true]⟩),
  (46, ⟨1, true, [.par 0, .tok .comma, .arm 45 [] true]⟩),
  (45, ⟨1, true, [.par 0, .tok .comma, .arm 44 [] true]⟩),
  (44, ⟨1, true, [.par 0, .tok .comma, .arm 43 [] true]⟩),
  (43, ⟨1, true, [.par 0, .tok .comma, .arm 42 [] true]⟩),
  (42, ⟨1, true, [.par 0, .tok .comma, .arm 41 [] true]⟩),
  (41, ⟨1, true, [.par 0, .tok .comma, .arm 40 [] true]⟩),
  (40, ⟨1, true, [.par 0, .tok .comma, .arm 39 [] true]⟩),
  (39, ⟨1, true, [.par 0, .tok .comma, .arm 38 [] true]⟩),
  (38, ⟨1, true, [.par 0, .tok .comma, .arm 37 [] true]⟩),
  (37, ⟨1, true, [.par 0, .tok .comma, .arm 36 [] true]⟩),
  (36, ⟨1, true, [.par 0, .tok .comma, .arm 35 [] true]⟩),
  (35, ⟨1, true, [.par 0, .tok .comma, .arm 34 [] true]⟩),
  (34, ⟨1, true, [.par 0, .tok .comma, .arm 33 [] true]⟩),
  (33, ⟨1, true, [.par 0, .tok .comma, .arm 32 [] true]⟩),
  (32, ⟨1, true, [.par 0, .tok .comma, .arm 31 [] true]⟩),
  (31, ⟨1, true, [.par 0, .tok .comma, .arm 30 [] true]⟩),
  (30, ⟨1, true, [.par 0, .tok .comma, .arm 29 [] true]⟩),
  (29, ⟨1, true, [.par 0, .tok .comma, .arm 28 [] true]⟩),
  (28, ⟨1, true, [.par 0, .tok .comma, .arm 27 [] true]⟩),
  (27, ⟨1, true, [.par 0, .tok .comma, .arm 26 [] true]⟩),
  (26, ⟨1, true, [.par 0, .tok .comma, .arm 25 [] true]⟩),
  (25, ⟨1, true, [.par 0, .tok .comma, .arm 24 [] true]⟩),
  (24, ⟨1, true, [.par 0, .tok .comma, .arm 23 [] true]⟩),
  (23, ⟨1, true, [.par 0, .tok .comma, .arm 22 [] true]⟩),
  (22, ⟨1, true, [.par 0, .tok .comma, .arm 21 [] true]⟩),
  (21, ⟨1, true, [.par 0, .tok .comma, .arm 20 [] true]⟩),
  (20, ⟨1, true, [.par 0, .tok .comma, .arm 19 [] true]⟩),
  (19, ⟨1, true, [.par 0, .tok .comma, .arm 18 [] true]⟩),
  (18, ⟨1, true, [.par 0, .tok .comma, .arm 17 [] true]⟩),
  (17, ⟨1, true, [.par 0, .tok .comma, .arm 16 [] true]⟩),
  (16, ⟨1, true, [.par 0, .tok .comma, .arm 15 [] true]⟩),
  (15, ⟨1, true, [.par 0, .tok .comma, .arm 14 [] true]⟩),
  (14, ⟨1, true, [.par 0, .tok .comma, .arm 13 [] true]⟩),
  (13, ⟨1, true, [.par 0, .tok .comma, .arm 12 [] true]⟩),
  (12, ⟨1, true, [.par 0, .tok .comma, .arm 11 [] true]⟩),
  (11, ⟨1, true, [.par 0, .tok .comma, .arm 10 [] true]⟩),
  (10, ⟨1, true, [.par 0, .tok .comma, .arm 9 [] true]⟩),
  (9, ⟨1, true, [.par 0, .tok .comma, .arm 8 [] true]⟩),
  (8, ⟨1, true, [.par 0, .tok .comma, .arm 7 [] true]⟩),
  (7, ⟨1, true, [.par 0, .tok .comma, .arm 6 [] true]⟩),
  (6, ⟨1, true, [.par 0, .tok .comma, .arm 5 [] true]⟩),
  (5, ⟨1, true, [.par 0, .tok .comma, .arm 4 [] true]⟩),
  (4, ⟨1, true, [.par 0, .tok .comma, .arm 3 [] true]⟩),
  (3, ⟨1, true, [.par 0, .tok .comma, .arm 2 [] true]⟩),
  (2, ⟨1, true, [.par 0, .tok .comma, .arm 1 [] true]⟩),
  (1, ⟨1, true, [.par 0]⟩)]

end Nbdl.Macros

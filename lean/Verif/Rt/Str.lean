import Verif.Rt.Natives

/-!
# Strings

Transcription of `native_functions/string.rs`, the natives behind `std::string`
(move-packages/move-stdlib/sources/string.move).  A reference to a vector is loaded before a native is
called (translation/functions.rs 265-302), so the natives get the address of the vector itself.
-/

namespace Rt
open Wasm

/-- One `if … { i += k; continue; }` of `internal_check_utf8`: the condition is on the stack. -/
def utfNext (k : Nat) : List Instr :=
  code[.ite 0 code[Op.lget 2, Op.c32 k, Op.bin .w32 .add, Op.lset 2, .br 2] code[]]

/-- The test `lo <= c && c <= hi && (c & mask) == pat` (native_functions/string.rs 176-190, 239-255,
287-303). -/
def utfTest (lo hi mask pat : Nat) : List Instr :=
  code[Op.c32 lo, Op.lget 3, Op.bin .w32 .leU, Op.lget 3, Op.c32 hi, Op.bin .w32 .leU, Op.bin .w32 .and,
   Op.lget 3, Op.c32 mask, Op.bin .w32 .and, Op.c32 pat, Op.bin .w32 .eq, Op.bin .w32 .and]

/-- `add_internal_check_utf8` (native_functions/string.rs 16-329).
Locals: 0 vec_ptr; 1 length, 2 i, 3 current_char. -/
def checkUtf8 : Fn := ⟨1, 1, 3,
  code[Op.lget 0, Op.load 4 0, Op.lset 1] ++ skipVecHeader 0 ++ code[Op.lset 0,
   .loop 1
     code[Op.lget 2, Op.lget 1, Op.bin .w32 .geU,
      .ite 1
        code[Op.c32 1, .ret]
        (code[Op.lget 0, Op.lget 2, Op.bin .w32 .add, Op.load 1 0, Op.ltee 3,
          Op.lget 3, Op.c32 0x7F, Op.bin .w32 .leU] ++ utfNext 1 ++
         code[Op.lget 0, Op.lget 2, Op.bin .w32 .add, Op.load 2 0, swap32.call, Op.c32 16, Op.bin .w32 .shrU,
          Op.lset 3,
          Op.c32 0xC080, Op.lget 3, Op.bin .w32 .eq] ++ utfNext 2 ++
         utfTest 0xC280 0xDFBF 0xE0C0 0xC080 ++ utfNext 2 ++
         code[Op.lget 0, Op.lget 2, Op.bin .w32 .add, Op.load 4 0, swap32.call, Op.c32 8, Op.bin .w32 .shrU,
          Op.lset 3,
          Op.c32 0xEDA080, Op.lget 3, Op.bin .w32 .leU, Op.lget 3, Op.c32 0xEDBFBF, Op.bin .w32 .leU,
          Op.bin .w32 .and, .ite 0 code[Op.c32 0, .ret] code[]] ++
         utfTest 0xE0A080 0xEFBFBF 0xF0C0C0 0xE08080 ++ utfNext 3 ++
         code[Op.lget 0, Op.lget 2, Op.bin .w32 .add, Op.load 4 0, swap32.call, Op.lset 3] ++
         utfTest 0xF0908080 0xF48FBFBF 0xF8C0C0C0 0xF0808080 ++ utfNext 4 ++
         code[Op.c32 0, .ret])],
   .ret]⟩

/-- `i32.load8_s`, written as the unsigned load followed by the sign extension it performs. -/
def load8s : List Instr :=
  code[Op.load 1 0, Op.c32 128, Op.bin .w32 .xor, Op.c32 128, Op.bin .w32 .sub]

/-- `add_internal_is_char_boundary` (native_functions/string.rs 332-430).
Locals: vec_ptr, char_index; 2 length, 3 is_boundary, 4 char_index_i32. -/
def isCharBoundary : Fn := ⟨2, 1, 3,
  code[Op.lget 1, Op.un .wrap, Op.lset 4, Op.c32 0, Op.lset 3, Op.lget 0, Op.load 4 0, Op.lset 2,
   Op.lget 1, Op.un .eqz,
   .ite 0
     code[Op.c32 1, Op.lset 3]
     code[Op.lget 4, Op.lget 2, Op.bin .w32 .geU,
      .ite 0
        code[Op.lget 4, Op.lget 2, Op.bin .w32 .eq, Op.lset 3]
        (vecElemPtr 0 4 1 ++ load8s ++ code[Op.c32 0xFFFFFFC0, Op.bin .w32 .geS, Op.lset 3])],
   Op.lget 3, .ret]⟩

/-- `add_internal_index_of` (native_functions/string.rs 433-612).
Locals: vec_ptr, pattern_ptr; 2 vec_len, 3 pattern_len, 4 i, 5 j, 6 search_limit. -/
def indexOf : Fn := ⟨2, 1, 5,
  code[Op.lget 0, Op.load 4 0, Op.lset 2, Op.lget 1, Op.load 4 0, Op.lset 3,
   Op.lget 3, Op.un .eqz, .ite 0 code[Op.c64 0, .ret] code[],
   Op.lget 3, Op.lget 2, Op.bin .w32 .gtU, .ite 0 code[Op.lget 2, Op.un .extend, .ret] code[],
   Op.lget 2, Op.lget 3, Op.bin .w32 .sub, Op.lset 6,
   Op.c32 0, Op.lset 4,
   .loop 0
     code[Op.c32 0, Op.lset 5,
      .loop 0
        (vecElemPtr 0 4 1 ++ code[Op.lget 5, Op.bin .w32 .add, Op.load 1 0] ++
         vecElemPtr 1 5 1 ++ code[Op.load 1 0, Op.bin .w32 .ne,
         .ite 0
           code[Op.lget 4, Op.c32 1, Op.bin .w32 .add, Op.lset 4]
           code[Op.lget 5, Op.c32 1, Op.bin .w32 .add, Op.lset 5,
            Op.lget 5, Op.lget 3, Op.bin .w32 .eq,
            .ite 0 code[Op.lget 4, Op.un .extend, .ret] code[.br 2]]]),
      Op.lget 4, Op.lget 6, Op.bin .w32 .leU, .brIf 0],
   Op.lget 2, Op.un .extend, .ret]⟩

/-- `add_internal_sub_string` (native_functions/string.rs 615-718).
Locals: vec_ptr, start_idx, end_idx; 3 sub_vec_ptr, 4 start_idx_i32, 5 end_idx_i32, 6 len, 7 sub_len. -/
def subString : Fn := ⟨3, 1, 5,
  code[Op.lget 0, Op.load 4 0, Op.lset 6,
   Op.lget 1, Op.un .wrap, Op.lset 4, Op.lget 2, Op.un .wrap, Op.lset 5,
   Op.lget 4, Op.lget 5, Op.bin .w32 .gtU,
   .ite 0
     code[Op.unreachable]
     code[Op.lget 5, Op.lget 6, Op.bin .w32 .gtU, .ite 0 code[Op.unreachable] code[]],
   Op.lget 5, Op.lget 4, Op.bin .w32 .sub, Op.lset 7,
   Op.lget 7, Op.lget 7, Op.c32 1, allocVec.call, Op.lset 3] ++
  skipVecHeader 3 ++ vecElemPtr 0 4 1 ++ code[Op.lget 7, Op.memCopy, Op.lget 3, .ret]⟩

end Rt

import Verif.Rt.Alloc

/-!
# The signer argument
-/

namespace Rt
open Wasm

/-- `inject_signer` (runtime/unpacking/signer.rs 7-30): declared with no parameters and no results; the pointer to the signer, which
the caller (abi_types/public_function.rs 108-122) expects on the operand stack, is left there. -/
def injectSigner : Fn := ⟨0, 0, 1,
  code[Op.c32 32, alloc.call, Op.ltee 0, Op.c32 12, Op.bin .w32 .add, Op.host .txOrigin, Op.lget 0]⟩

end Rt

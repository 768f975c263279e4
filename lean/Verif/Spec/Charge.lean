import Verif.Spec.Endpoint
/-!
# Whom a message may charge
-/

namespace EvmMinter
namespace Spec

/-- The account that a message asks to take tokens from: that of the caller of a withdrawal. -/
def _root_.EvmMinter.Message.payer : Message → Option Account
  | .withdrawNative caller _ _ => some ⟨caller, none⟩
  | .withdrawErc20 caller _ _ _ _ => some ⟨caller, none⟩
  | _ => none

/-- The maximum fee of an ERC-20 withdrawal at a gas fee estimate: 65000 units of gas, at twice the base fee plus the priority
fee; both saturate at the largest 256-bit number. -/
def maxFeeAt (base priority : Nat) : Nat := min (65000 * min (2 * base + priority) (2 ^ 256 - 1)) (2 ^ 256 - 1)

end Spec
end EvmMinter

import Verif.Codec.KeyPath

/-!
# Displayed amounts
-/
namespace Verif.Wallet
open Verif.Codec

/-- `WalletBalanceDTO::FormatAmount` (include/Wallet/Models/DTOs/WalletBalanceDTO.h:46-49). -/
def formatAmount (amount : Nat) : Bytes :=
  decStr (amount / 1000000000) ++ str "." ++ decStr (amount % 1000000000)

end Verif.Wallet

import Verif.Transform.Shake
import Verif.Transform.Unions
import Verif.Transform.Rename
import Verif.Transform.Ambig

/-!
# Configuration transformers

Collects the properties C50 (`Shake`), C51 (`Unions`), C52 (`Ambig`) and C53 (`Rename`).
-/

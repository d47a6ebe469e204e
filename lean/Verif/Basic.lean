/-!
# Shared vocabulary

Go `[]byte` and `string` values are modelled as `List UInt8`.
-/

namespace Verif

/-- A Go `[]byte` or `string`: a finite sequence of bytes. -/
abbrev Bytes := List UInt8

/-- Bytes of an ASCII string literal (used to write readable literals). -/
def asc (s : String) : Bytes := s.toList.map (fun c => UInt8.ofNat c.toNat)

end Verif

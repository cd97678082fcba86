import Verif.Model.Schemas
import Verif.Model.Wire

/-!
# `Message` to bytes and back

hdr.go 310-344 and 660-689.
-/

namespace Verif.Greenpack

/-- The type of a struct. -/
def Struct.ty (s : Struct) : Ty := .rct s.slots s.fields

/-- `len(m.JobSerz)`: `JobSerz` is the second field of `Message`
(hdr_gen.go 1347-1369). -/
def jobLen : Val → Nat
  | .rct [_, .prim (.bin s), _, _] => s.length
  | _ => 0

/-- `Message.AsGreenpack` (hdr.go 336-344); `none` is the panic.  The workspace
is cut to length 0 before it is appended to, so it has no influence.
`MarshalMsg` itself returns no error for this struct. -/
def asGreenpack (L : Lib) (m : Val) : Option Bytes :=
  if jobLen m > Wire.maxMessage - 1024 then none else some (marshal L repo Message m)

/-- `MessageFromGreenpack` (hdr.go 314-327): a fresh `Message`, bytes left over
are ignored; `none` is the error. -/
def messageFromGreenpack (L : Lib) (b : Bytes) : Option Val :=
  (unmarshal L repo Message Message.ty.zero b).map (·.1)

/-- `HDR.AsGreenpack` (hdr.go 679-689). -/
def hdrAsGreenpack (L : Lib) (h : Val) : Bytes := marshal L repo HDR h

/-- `HDRFromGreenpack` (hdr.go 664-673). -/
def hdrFromGreenpack (L : Lib) (b : Bytes) : Option Val :=
  (unmarshal L repo HDR HDR.ty.zero b).map (·.1)

end Verif.Greenpack

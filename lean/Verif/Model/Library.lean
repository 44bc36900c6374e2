import Verif.Model.SysIo
import Verif.Model.Convert
import Verif.Model.SetOps

/-! The library routines of the virtual machine put together, as `libexec_run.c` calls them. -/
namespace Pas

/-- What the library depends on outside the program: the arithmetic of the processor, the size of the
buffer of a new string (`STRING_BUFFER_SIZE`, `include/pas_machine.h` 140), C `memcmp`, the host's files,
and the routines that are not modelled: GETENV and SPAWN (`libexec_oslib.c` 87-330, 409-470) here, the
directory operations in `host`. -/
structure Platform where
  fpu : FloatOps.Fpu
  bufSize : Nat
  memcmp : List Byte → List Byte → Int
  environment : VM → Byte → Res (Nat × VM)
  host : SysIo.Host

/-- The routines called by `pexec16`, `pexec24` and `pexec32`, `libexec_run.c` 717-733, 1098-1111, 1343-1346. -/
def machine (p : Platform) : Lib where
  floatOps := FloatOps.floatOps p.fpu
  setOps := SetOps.setOps
  osOps := Heap.osOps p.environment
  longOps8 := LongOps.longOps8
  longOps24 := LongOps.longOps24
  strOps := Str.strOps ⟨p.bufSize, p.memcmp, Convert.conversions p.host⟩
  sysIo := SysIo.sysIo p.fpu p.host

end Pas

import Verif.Model.Library

/-! Specification: what is assumed of the library routines that are not modelled. -/
namespace Pas.Spec

/-- A routine that works on the memory, the stacks and the files of the program only: it returns with the
program counter and the memory map it was called with, what it does does not depend on the program counter
and the constant base, and it does not claim that the opcode is illegal. -/
structure Ordinary (f : VM → Res (Nat × VM)) : Prop where
  keeps : ∀ s e s', f s = .ok (e, s') → e ≠ eILLEGALOPCODE ∧
    s' = { s with
      mem := s'.mem
      sp := s'.sp
      csp := s'.csp
      hsp := s'.hsp
      freeChunks := s'.freeChunks
      io := s'.io }
  blind : ∀ s p r, f { s with pc := p, rop := r } =
    f s >>= fun x => .ok (x.1, { x.2 with pc := p, rop := r })

/-- The two groups of routines that are not modelled are ordinary. -/
structure OrdinaryPlatform (p : Platform) : Prop where
  environment : ∀ b, Ordinary (p.environment · b)
  directory : ∀ w, Ordinary (p.host.dir · w)

/-- A routine that does not touch the program's files. -/
def NoFiles (f : VM → Res (Nat × VM)) : Prop := ∀ s e s', f s = .ok (e, s') → s'.io = s.io

end Pas.Spec

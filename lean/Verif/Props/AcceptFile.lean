import Verif.Lemmas.AcceptPeriod
import Verif.Props.AcceptProg
import Verif.Props.Chain

/-! Property C82 for source files: only programs are compiled and linked. -/
namespace Pas.Accept
open Pas.Comp Pas.Chain

/-- What has been read from a file, if a program is found in it, is the program and nothing else. -/
theorem whole_program {n : Nat} {s : Tok.State} {x : Lx} {toks : List Lx} {e : Nat}
    (h : readTokens n s = .ok (x :: toks, e)) (hx : x ≠ .tk .period)
    (hp : ∃ k ts rest, toks ++ List.replicate k (.tk .period) = ts ++ rest ∧ Program ts) : Program toks := by
  obtain ⟨k, ts, rest, he, hp⟩ := hp
  obtain ⟨us, hu, hn⟩ := readTokens_period n s _ e h
  cases us with
  | nil => injection hu with hu _; exact (hx hu).elim
  | cons y us =>
    injection hu with _ hu
    obtain ⟨vs, hv, hi⟩ := hp.inner
    subst hu
    subst hv
    have hv : .tk .period ∉ vs := fun hm => by
      have := List.all_eq_true.1 hi _ hm
      cases this
    rw [one_period (fun hm => hn (List.mem_cons_of_mem _ hm)) hv he]
    exact hp

/-- C82 (partial, as `C82_program_partial`): whatever is in the source file, if the compiler writes an object file for
it then the tokenizer has found no error, the tokens up to the first period are the word PROGRAM and a program, and the
object is what is compiled from these tokens, without an error. -/
theorem C82_file_partial (line : Nat → Byte × Word) (pad : Byte) (n : Nat) (file : List Byte) (obj : Object)
    (h : compileFile line pad n file = .ok (some obj)) :
    obj.errs = 0 ∧ ∃ toks, readTokens n (startOfFile file) = .ok (.tk (.other 0x9d) :: toks, 0) ∧
      program line pad n toks = .ok (some obj) ∧ Program toks := by
  unfold compileFile at h
  rw [Res.bind_eq_ok] at h
  obtain ⟨⟨toks, errs⟩, h1, h⟩ := h
  simp only at h
  split at h
  · rename_i toks
    split at h
    · cases h
    · rename_i he
      have he : errs = 0 := by omega
      subst he
      rw [Res.bind_eq_ok] at h
      obtain ⟨r, h2, h⟩ := h
      cases r with
      | none => cases h
      | some obj' =>
        simp only at h
        split at h
        · cases h
        · rename_i hz
          have hz : obj'.errs = 0 := by omega
          injection h with h; injection h with h
          subst h
          exact ⟨hz, toks, h1, h2, whole_program h1 nofun (C82_program_partial line pad n toks obj' h2 hz)⟩
  · cases h

/-- C82 (partial, as `C82_program_partial`): whatever is in the source file, if the tools make an executable program of it then it is a
program. -/
theorem C82_build_partial (line : Nat → Byte × Word) (pad : Byte) (name : List Byte) (files : List (List Byte)) (n : Nat)
    (file : List Byte) (o : Link.Output) (h : buildFile line pad name files n file = .ok (some o)) :
    ∃ toks, readTokens n (startOfFile file) = .ok (.tk (.other 0x9d) :: toks, 0) ∧ Program toks := by
  unfold buildFile at h
  rw [Res.bind_eq_ok] at h
  obtain ⟨⟨toks, errs⟩, h1, h⟩ := h
  simp only at h
  split at h
  · rename_i toks
    split at h
    · cases h
    · rename_i he
      have he : errs = 0 := by omega
      subst he
      unfold build at h
      rw [Res.bind_eq_ok] at h
      obtain ⟨r, h2, h⟩ := h
      cases r with
      | none => cases h
      | some obj' =>
        simp only at h
        split at h
        · cases h
        · rename_i hz
          exact ⟨toks, h1, whole_program h1 nofun (C82_program_partial line pad n toks obj' h2 (by omega))⟩
  · cases h

/-- The hypotheses are met by the file of the example of `C78_source_partial`. -/
example : (match compileFile (fun _ => (0, 7)) 0 300 Pas.Src.writeText with
      | .ok (some _) => true
      | _ => false) = true ∧
    (match buildFile (fun _ => (0, 0)) 0 [112] [[112]] 300 Pas.Src.writeText with
      | .ok (some _) => true
      | _ => false) = true := by decide +kernel

/-- `program p; begin x end.`: a name that is not declared; no object is written. -/
example : compileFile (fun _ => (0, 7)) 0 300
      [112, 114, 111, 103, 114, 97, 109, 32, 112, 59, 32, 98, 101, 103, 105, 110, 32, 120, 32, 101, 110, 100, 46, 10] =
    .ok none := by
  have : (match compileFile (fun _ => (0, 7)) 0 300
      [112, 114, 111, 103, 114, 97, 109, 32, 112, 59, 32, 98, 101, 103, 105, 110, 32, 120, 32, 101, 110, 100, 46, 10] with
      | .ok none => true
      | _ => false) = true := by decide +kernel
  split at this
  · assumption
  · cases this

end Pas.Accept

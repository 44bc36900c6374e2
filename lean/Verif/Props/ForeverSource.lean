import Verif.Props.Forever
import Verif.Props.Chain

/-! Property C83: programs that do not end, from the source file through the files of all tools to the machine. -/
namespace Pas.Src
open Pas.Spec Pas.Comp Pas.Link Pas.Poff Pas.Chain

/-- C83 (partial: the programs of `C78_source_partial`, calls nested at most `d` deep).
From the source file: the compiler, the optimizer program (which does nothing but finalize), the linker program and the
loader, with the files between them.  What is loaded does what the statements do and nothing else.  Whatever they have
written at some moment of their execution is the standard output after some number of instructions.  If they do not
go wrong then there is no error and nothing undefined after any number of instructions; if the machine has
stopped then they end, with the values in the memory and the text on the standard output; and it runs on for any number of
instructions exactly if they go on forever. -/
theorem C83_source_partial {P : Source} {b : S .list} (ok : P.Ok b) {file : List Byte}
    (hw : Written file (.tk (.other 0x9d) :: P.toks)) (h0 : 0#8 ∉ file)
    (hs : P.size ≤ 32768) (hl : P.procs.toks.length + b.toks.length ≤ 65534) (hd : b.need 0 ≤ 16384)
    (line : Nat → Byte × Word) (pad : Byte) :
    ∃ N obj, (∀ n, N ≤ n → compileFile line pad n file = .ok (some obj)) ∧
      ∀ (os : List ObjOp) (name fileName : List Byte), (∀ o ∈ os, o.WF) → costs os < 2 ^ 24 →
        Emits os obj name fileName →
        ∃ p o1 o2 exe, runOps create os = .ok p ∧ fileOf p = .ok o1 ∧ poptFile o1 = .ok (some o2) ∧
          plinkFiles [o2] = .ok (some exe) ∧
          ∀ (strSize stkSize hpSize : Word) (m0 : Nat → Word) (host : HostFile → Option (List Byte)),
            ∃ attr prog maxpc, loadExe exe strSize stkSize hpSize = .ok (some (attr, prog, maxpc)) ∧
            (prog.length ≤ 65535 → strSize.toNat % 2 = 0 →
              even strSize.toNat + even attr.rodata.length + even stkSize.toNat + even hpSize.toNat < 65536 →
              10 ≤ stkSize.toNat →
              (hpSize.toNat ≤ 32 ∨
                (even strSize.toNat + even attr.rodata.length + even stkSize.toNat) % 16 = 0) →
              ∃ s, startUp attr m0 host = .ok s ∧
                ∀ pl : Platform, OrdinaryPlatform pl →
                  ∀ d, 10 + even P.size + 2 * b.need (callRoom P.decls d) + 4 ≤ stkSize.toNat →
                  ∀ σ : State, σ.out = some ((host .stdout).getD []) →
                  σ.inp = some ⟨false, (host .stdin).getD []⟩ →
                  (P.env s.spb.toNat).Holds s.mem σ.store →
                  (∀ text k, WritesIn (P.calls d) (CallsWrite (declIn P.decls) text d) text k (.list b) σ →
                    ∃ n t, runFor (machine pl) prog maxpc n s = .ok (eNOERROR, t) ∧ fileText t .stdout = text) ∧
                  (¬ Wrong (P.calls d) (CallsForever (declIn P.decls) d) (.list b) σ →
                    (∀ n, ∃ e t, runFor (machine pl) prog maxpc n s = .ok (e, t) ∧
                      (e = eNOERROR ∨ e = eEXIT ∧ ∃ τ, Exec (P.calls d) (.list b) σ .normal τ ∧
                        (P.env s.spb.toNat).Holds t.mem τ.store ∧
                        (∀ text, τ.out = some text → fileText t .stdout = text) ∧
                        ∀ f, f ≠ .stdout → t.io.files f = host f)) ∧
                    ((∀ n, ∃ t, runFor (machine pl) prog maxpc n s = .ok (eNOERROR, t)) ↔
                      Forever (P.calls d) (CallsForever (declIn P.decls) d) (.list b) σ))) := by
  obtain ⟨N, hN⟩ := compileFile_ok ok hw h0 hs hl hd line pad
  refine ⟨N, _, fun n hn => (hN n hn).1, fun os name fileName hwf hcost he => ?_⟩
  obtain ⟨M, o, h1, h2⟩ := C83_agrees_partial line pad ok hs hl hd name (files := [fileName]) (by simp)
  have hb := h1 (max N M) (by omega)
  unfold build at hb
  rw [(hN (max N M) (by omega)).2] at hb
  simp only [Res.ok_bind, ne_eq, not_true_eq_false, if_false] at hb
  rw [Res.bind_eq_ok] at hb
  obtain ⟨f, hfin, hlink⟩ := hb
  match f with
  | none => cases hlink
  | some f =>
    obtain ⟨p, o1, o2, exe, c1, c2, c3, c4, c5⟩ := C78_files_partial hwf hcost he hfin hlink
    refine ⟨p, o1, o2, exe, c1, c2, c3, c4, fun strSize stkSize hpSize m0 host =>
      ⟨_, _, _, c5 strSize stkSize hpSize, fun hlen a1 a2 a3 a4 => ?_⟩⟩
    obtain ⟨s, hst, h⟩ := h2 hlen strSize stkSize hpSize m0 host a1 a2 a3 a4
    refine ⟨s, hst, fun pl hpl d hroom σ ho hi hh => ?_⟩
    obtain ⟨k1, k2⟩ := h pl hpl d hroom σ hh (fun text e => by rw [ho] at e; injection e with e; exact e.symm)
      (fun i e => by rw [hi] at e; injection e with e; exact e.symm)
    refine ⟨k1, fun hw => ⟨fun n => ?_, (k2 hw).2⟩⟩
    obtain ⟨e, t, r1, r2⟩ := (k2 hw).1 n
    refine ⟨e, t, r1, ?_⟩
    rcases r2 with r2 | ⟨r2, τ, r3, r4, r5, _, r6⟩
    · exact .inl r2
    · exact .inr ⟨r2, τ, r3, r4, r5, r6⟩

/-! ### An example -/

/--
    PROGRAM e(OUTPUT);
    var n:integer;
    begin n:=1; while n=1 do write('ab') end.
-/
def endlessText : List Byte :=
  [80, 82, 79, 71, 82, 65, 77, 32, 101, 40, 79, 85, 84, 80, 85, 84, 41, 59, 10, 118, 97, 114, 32,
   110, 58, 105, 110, 116, 101, 103, 101, 114, 59, 10, 98, 101, 103, 105, 110, 32, 110, 58, 61, 49,
   59, 32, 119, 104, 105, 108, 101, 32, 110, 61, 49, 32, 100, 111, 32, 119, 114, 105, 116, 101, 40,
   39, 97, 98, 39, 41, 32, 101, 110, 100, 46, 10]

set_option maxRecDepth 20000 in
open Pas.Tok in
theorem endlessText_written : Written endlessText (.tk (.other 0x9d) :: endlessProgram.toks) := by
  refine .cons (l := []) (w := [80, 82, 79, 71, 82, 65, 77]) (.nil) (.word (k := [80, 82, 79, 71, 82, 65, 77]) (by simp [words]) (by decide)) (by decide) (by decide) ?_
  refine .cons (l := [32]) (w := [101]) (.blank _ (by decide) (.nil)) (.name ⟨by decide, _, _, rfl, by decide⟩ (by decide +kernel) (by decide +kernel)) (by decide) (by decide) ?_
  refine .cons (l := []) (w := [40]) (.nil) (.symbol (by simp [symbols]; rfl)) (by decide) (by decide) ?_
  refine .cons (l := []) (w := [79, 85, 84, 80, 85, 84]) (.nil) (.name ⟨by decide, _, _, rfl, by decide⟩ (by decide +kernel) (by decide +kernel)) (by decide) (by decide) ?_
  refine .cons (l := []) (w := [41]) (.nil) (.symbol (by simp [symbols]; rfl)) (by decide) (by decide) ?_
  refine .cons (l := []) (w := [59]) (.nil) (.symbol (by simp [symbols]; rfl)) (by decide) (by decide) ?_
  refine .cons (l := [10]) (w := [118, 97, 114]) (.blank _ (by decide) (.nil)) (.word (k := [86, 65, 82]) (by simp [words]) (by decide)) (by decide) (by decide) ?_
  refine .cons (l := [32]) (w := [110]) (.blank _ (by decide) (.nil)) (.name ⟨by decide, _, _, rfl, by decide⟩ (by decide +kernel) (by decide +kernel)) (by decide) (by decide) ?_
  refine .cons (l := []) (w := [58]) (.nil) (.symbol (by simp [symbols]; rfl)) (by decide) (by decide) ?_
  refine .cons (l := []) (w := [105, 110, 116, 101, 103, 101, 114]) (.nil) (.name ⟨by decide, _, _, rfl, by decide⟩ (by decide +kernel) (by decide +kernel)) (by decide) (by decide) ?_
  refine .cons (l := []) (w := [59]) (.nil) (.symbol (by simp [symbols]; rfl)) (by decide) (by decide) ?_
  refine .cons (l := [10]) (w := [98, 101, 103, 105, 110]) (.blank _ (by decide) (.nil)) (.word (k := [66, 69, 71, 73, 78]) (by simp [words]) (by decide)) (by decide) (by decide) ?_
  refine .cons (l := [32]) (w := [110]) (.blank _ (by decide) (.nil)) (.name ⟨by decide, _, _, rfl, by decide⟩ (by decide +kernel) (by decide +kernel)) (by decide) (by decide) ?_
  refine .cons (l := []) (w := [58, 61]) (.nil) (.symbol (by simp [symbols]; rfl)) (by decide) (by decide) ?_
  refine .cons (l := []) (w := [49]) (.nil) (.number (by decide) (by decide) (by decide)) (by decide) (by decide) ?_
  refine .cons (l := []) (w := [59]) (.nil) (.symbol (by simp [symbols]; rfl)) (by decide) (by decide) ?_
  refine .cons (l := [32]) (w := [119, 104, 105, 108, 101]) (.blank _ (by decide) (.nil)) (.word (k := [87, 72, 73, 76, 69]) (by simp [words]) (by decide)) (by decide) (by decide) ?_
  refine .cons (l := [32]) (w := [110]) (.blank _ (by decide) (.nil)) (.name ⟨by decide, _, _, rfl, by decide⟩ (by decide +kernel) (by decide +kernel)) (by decide) (by decide) ?_
  refine .cons (l := []) (w := [61]) (.nil) (.symbol (by simp [symbols]; rfl)) (by decide) (by decide) ?_
  refine .cons (l := []) (w := [49]) (.nil) (.number (by decide) (by decide) (by decide)) (by decide) (by decide) ?_
  refine .cons (l := [32]) (w := [100, 111]) (.blank _ (by decide) (.nil)) (.word (k := [68, 79]) (by simp [words]) (by decide)) (by decide) (by decide) ?_
  refine .cons (l := [32]) (w := [119, 114, 105, 116, 101]) (.blank _ (by decide) (.nil)) (.word (k := [87, 82, 73, 84, 69]) (by simp [words]) (by decide)) (by decide) (by decide) ?_
  refine .cons (l := []) (w := [40]) (.nil) (.symbol (by simp [symbols]; rfl)) (by decide) (by decide) ?_
  refine .cons (l := []) (w := [39, 97, 98, 39]) (.nil) (.string (t := [97, 98]) (by decide) (by decide) (by decide)) (by decide) (by decide) ?_
  refine .cons (l := []) (w := [41]) (.nil) (.symbol (by simp [symbols]; rfl)) (by decide) (by decide) ?_
  refine .cons (l := [32]) (w := [101, 110, 100]) (.blank _ (by decide) (.nil)) (.word (k := [69, 78, 68]) (by simp [words]) (by decide)) (by decide) (by decide) ?_
  refine .last (l := []) (w := [46]) (.nil) (.symbol (by simp [symbols]; rfl)) (by decide) (by decide)

/-- The object of the example. -/
def endlessObject : Object :=
  match compileFile (fun _ => (0, 7)) 0 300 endlessText with
  | .ok (some obj) => obj
  | _ => ⟨[], 1, 0, []⟩

/-- Calls that put it into an object file. -/
def endlessOps : List ObjOp :=
  [.file [101, 46, 112, 97, 115], .ftype 3 [101], .arch 0, .ro [97, 98] 0] ++
    (encode endlessObject.code).map .prog ++ [.entry 1]

/-- The hypotheses of `C83_source_partial` are met by the program of the example of `C83_program_partial`. -/
example : endlessProgram.Ok endlessBody ∧ Written endlessText (.tk (.other 0x9d) :: endlessProgram.toks) ∧
    0#8 ∉ endlessText ∧ endlessProgram.size ≤ 32768 ∧
    endlessProgram.procs.toks.length + endlessBody.toks.length ≤ 65534 ∧ endlessBody.need 0 ≤ 16384 ∧
    compileFile (fun _ => (0, 7)) 0 300 endlessText = .ok (some endlessObject) ∧
    (∀ o ∈ endlessOps, o.WF) ∧ costs endlessOps < 2 ^ 24 ∧
    Emits endlessOps endlessObject [101] [101, 46, 112, 97, 115] := by
  have hwf : ∀ o ∈ endlessOps, o.WF := by
    intro o ho
    simp only [endlessOps, List.mem_append, List.mem_cons, List.mem_map, List.not_mem_nil, or_false] at ho
    rcases ho with ((rfl | rfl | rfl | rfl) | ⟨_, _, rfl⟩) | rfl <;>
      first
      | trivial
      | (simp [ObjOp.WF, IsCStr])
  refine ⟨endless_ok, endlessText_written, by decide, by decide, by decide, by decide, ?_, hwf, by decide +kernel, ?_⟩
  · have : (match compileFile (fun _ => (0, 7)) 0 300 endlessText with
        | .ok (some _) => true
        | _ => false) = true := by decide +kernel
    unfold endlessObject
    split at this
    · next h => rw [h]
    · cases this
  · exact ⟨by decide +kernel, by decide +kernel, by decide +kernel, by decide +kernel, by decide +kernel,
      by decide +kernel, by decide +kernel, by decide +kernel, by decide +kernel⟩

end Pas.Src

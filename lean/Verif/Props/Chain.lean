import Verif.Lemmas.Chain
import Verif.Spec.Chain
import Verif.Props.Source

/-! C78: the tools hand programs on through files. -/
namespace Pas.Chain
open Pas.Poff Pas.Comp Pas.Spec Pas.Props Pas.Src

/-- C78 (partial): the object a program has been compiled to, written to a file by whatever calls of the
object-file library, read, finalized and written by the optimizer, read, linked and written by the linker,
is accepted by the loader, which gets exactly the linked program, its read-only data, its entry point and
its size.  Partial: one object file with no symbols and one file name; what the optimizer proper does is
C30 to C33. -/
theorem C78_files_partial {os : List ObjOp} {obj : Object} {name file : List Byte} (hw : ∀ o ∈ os, o.WF)
    (hsize : costs os < 2 ^ 24) (he : Emits os obj name file) {f : ObjFile}
    (hfin : finalize obj.file = .ok (some f)) {o : Link.Output}
    (hlink : Link.link [linkInput name [file] obj.rodata f] = .ok (some o)) :
    ∃ p o1 o2 exe, runOps create os = .ok p ∧ fileOf p = .ok o1 ∧ poptFile o1 = .ok (some o2) ∧
      plinkFiles [o2] = .ok (some exe) ∧
      ∀ strSize stkSize hpSize, loadExe exe strSize stkSize hpSize =
        .ok (some (attrOf o strSize stkSize hpSize, o.prog, maxPc o)) := by
  obtain ⟨p, l, h1, h2⟩ := inv_runOps os inv_create hw
  rw [Nat.zero_add] at h2
  have h2' : Inv p (contents os) l (costs os) := h2
  have hpl : (contents os).program.length ≤ costs os := by
    have := h2'.size
    rw [← h2'.text]
    unfold total at this; omega
  have hcn : IsCStr name := by
    have h := h2'.nameIn
    rw [he.name] at h
    rcases h2'.strs with ⟨_, e⟩ | e
    · rw [e, List.mem_singleton] at h; rw [h]; simp [IsCStr]
    · exact e.2.2 _ h
  have hcf : IsCStr file := by
    have h := h2'.fileIn file (by rw [he.files]; simp)
    rcases h2'.strs with ⟨_, e⟩ | e
    · rw [e, List.mem_singleton] at h; rw [h]; simp [IsCStr]
    · exact e.2.2 _ h
  obtain ⟨o1, q1, m1, w1, w2, w3, _⟩ := back_of_inv h2' (by omega) (by rw [he.files]; simp)
    (.inr (by rw [he.relocs]; simp))
  have hfin' : finalize ⟨(contents os).program, [], [], [], some (contents os).entry.toNat⟩ = .ok (some f) := by
    rw [he.program, he.entry]; exact hfin
  obtain ⟨_, _, f3, f4, v, f5⟩ := finalize_spec hfin'
  obtain ⟨q2, x1, x2⟩ := popt_back w3 he.symbols he.relocs he.lines he.ftype hfin'
  obtain ⟨o2, q3, m2, y1, y2, _, y4⟩ := back_of_inv x2 (by omega) (by simp [he.files]) (.inl rfl)
  have hin := inputOf_holds y4 he.symbols he.relocs
  have hin' : inputOf q3 = .ok (linkInput name [file] obj.rodata f) := by
    rw [hin]
    simp only [he.ftype, he.name, he.rodata, he.files, linkInput]
  obtain ⟨k1, k2, k3, k4, k5, k6⟩ := link_single rfl rfl hlink
  simp only [linkInput] at k1 k2 k3 k4 k6
  rw [List.length_map] at k3
  obtain ⟨p3, l3, z1, z2⟩ := outObject_inv o (by rw [k4]; exact hcn) k2 hcf k5
  have hro : o.rodata.length ≤ costs os := by
    have := h2'.size
    rw [k1, ← he.rodata, ← h2'.rodata]
    unfold total at this; omega
  have hnm : o.name.length + file.length ≤ 2 * costs os + 2 := by
    rw [k4, ← he.name]
    have hs : ∀ x ∈ l, x.length ≤ costs os + 1 := by
      intro x hx
      rcases h2'.strs with ⟨_, e⟩ | e
      · rw [e, List.mem_singleton] at hx; subst hx; simp
      · have := h2'.size
        unfold total at this
        have h0 : (p.data .strtab).length = (encStrs l).length := by rw [e.1]
        have h3 := encStrs_mem hx
        omega
    have a := hs _ h2'.nameIn
    have b := hs file (h2'.fileIn file (by rw [he.files]; simp))
    omega
  obtain ⟨exe, q4, m4, v1, v2, v3, _⟩ := back_of_inv z2 (by omega) (by simp) (.inl rfl)
  refine ⟨p, o1, o2, exe, h1, w1, ?_, ?_, ?_⟩
  · simp only [poptFile, w2, Res.ok_bind, x1, y1]
  · simp only [plinkFiles, readInputs, y2, Res.ok_bind, hin', hlink, z1, v1]
  · intro strSize stkSize hpSize
    simp only [loadExe, v2, Res.ok_bind, v3.ftype, v3.arch, v3.entry, v3.text, v3.rodata]
    rfl

/-- The text of a correct program is compiled, whatever the number of steps allowed from some number on. -/
theorem compileFile_ok {P : Source} {b : S .list} (ok : P.Ok b) {file : List Byte}
    (hw : Written file (.tk (.other 0x9d) :: P.toks)) (h0 : 0#8 ∉ file)
    (hs : P.size ≤ 32768) (hl : P.procs.toks.length + b.toks.length ≤ 65534) (hd : b.need 0 ≤ 16384)
    (line : Nat → Byte × Word) (pad : Byte) :
    ∃ N, ∀ n, N ≤ n → compileFile line pad n file =
        .ok (some ⟨codeP line pad P b, 0, 1, P.procs.ro pad ++ b.ro pad⟩) ∧
      program line pad n P.toks = .ok (some ⟨codeP line pad P b, 0, 1, P.procs.ro pad ++ b.ro pad⟩) := by
  obtain ⟨N, hN⟩ := program_ok line pad ok hs hl hd
  rw [source_init] at hw
  obtain ⟨M, hM⟩ := C71_tokens_partial file P.init hw h0 (source_period ok)
  refine ⟨max N M, fun n hn => ⟨?_, hN n (by omega)⟩⟩
  unfold compileFile
  rw [hM n (by omega), ← source_init]
  simp only [Res.ok_bind, hN n (by omega), ne_eq, not_true_eq_false, if_false]

/-- C78 (partial), from the text of a program to its execution, with a file between any two tools: a file
with the text of a correct program is compiled; whatever calls put the result into the object file, the
file is written, finalized, linked and loaded; and when the loaded program is run and its statements come
to an end, the machine stops regularly, the standard output has what the meaning of the statements says,
the variables have the values it says, and no other file has changed.  Partial: as
`C71_source_partial` and `C78_files_partial`. -/
theorem C78_source_partial {P : Source} {b : S .list} (ok : P.Ok b) {file : List Byte}
    (hw : Written file (.tk (.other 0x9d) :: P.toks)) (h0 : 0#8 ∉ file)
    (hs : P.size ≤ 32768) (hl : P.procs.toks.length + b.toks.length ≤ 65534) (hd : b.need 0 ≤ 16384)
    (line : Nat → Byte × Word) (pad : Byte) :
    ∃ N obj, (∀ n, N ≤ n → compileFile line pad n file = .ok (some obj)) ∧
      ∀ (os : List ObjOp) (name fileName : List Byte), (∀ o ∈ os, o.WF) → costs os < 2 ^ 24 →
        Emits os obj name fileName →
        ∃ p o1 o2 exe, runOps create os = .ok p ∧ fileOf p = .ok o1 ∧ poptFile o1 = .ok (some o2) ∧
          plinkFiles [o2] = .ok (some exe) ∧
          ∀ (strSize stkSize hpSize : Word) (m0 : Nat → Word) (host : HostFile → Option (List Byte)),
            ∃ attr prog maxpc, loadExe exe strSize stkSize hpSize = .ok (some (attr, prog, maxpc)) ∧
            (prog.length ≤ 65535 → strSize.toNat % 2 = 0 →
              even strSize.toNat + even attr.rodata.length + even stkSize.toNat + even hpSize.toNat < 65536 →
              10 ≤ stkSize.toNat →
              (hpSize.toNat ≤ 32 ∨
                (even strSize.toNat + even attr.rodata.length + even stkSize.toNat) % 16 = 0) →
              ∃ s, startUp attr m0 host = .ok s ∧
                ∀ pl : Platform, OrdinaryPlatform pl →
                  ∀ d, 10 + even P.size + 2 * b.need (callRoom P.decls d) + 4 ≤ stkSize.toNat →
                  ∀ (σ τ : Store) (written : List Byte) (left : Option Inp),
                  Exec (P.calls d) (.list b) ⟨σ, some ((host .stdout).getD []), some ⟨false, (host .stdin).getD []⟩⟩
                    .normal ⟨τ, some written, left⟩ →
                  (P.env s.spb.toNat).Holds s.mem σ →
                  ∃ n t, runFor (machine pl) prog maxpc n s = .ok (eEXIT, t) ∧
                    fileText t .stdout = written ∧ (P.env s.spb.toNat).Holds t.mem τ ∧
                    ∀ f, f ≠ .stdout → t.io.files f = host f) := by
  obtain ⟨N, hN⟩ := compileFile_ok ok hw h0 hs hl hd line pad
  refine ⟨N, _, fun n hn => (hN n hn).1, fun os name fileName hwf hcost he => ?_⟩
  obtain ⟨M, o, h1, h2⟩ := C70_program_partial line pad ok hs hl hd name (files := [fileName]) (by simp)
  have hb := h1 (max N M) (by omega)
  unfold build at hb
  rw [(hN (max N M) (by omega)).2] at hb
  simp only [Res.ok_bind, ne_eq, not_true_eq_false, if_false] at hb
  rw [Res.bind_eq_ok] at hb
  obtain ⟨f, hfin, hlink⟩ := hb
  match f with
  | none => cases hlink
  | some f =>
    obtain ⟨p, o1, o2, exe, c1, c2, c3, c4, c5⟩ := C78_files_partial hwf hcost he hfin hlink
    exact ⟨p, o1, o2, exe, c1, c2, c3, c4, fun strSize stkSize hpSize m0 host =>
      ⟨_, _, _, c5 strSize stkSize hpSize, fun hlen a1 a2 a3 a4 => h2 hlen strSize stkSize hpSize m0 host a1 a2 a3 a4⟩⟩

/-! ### An example -/

/-- `w.pas` -/
def writeName : List Byte := [119, 46, 112, 97, 115]

/-- The object of the program of `C71_source_partial`'s example. -/
def writeObject : Object :=
  match compileFile (fun _ => (0, 7)) 0 300 writeText with
  | .ok (some obj) => obj
  | _ => ⟨[], 1, 0, []⟩

/-- Calls that put it into an object file, with a record for the debugger: the code, then two strings. -/
def writeOps : List ObjOp :=
  [.file writeName, .ftype 3 [119], .arch 0, .ro [110, 32, 61] 0, .dbg ⟨1, 0, [2]⟩] ++
    (encode writeObject.code).map .prog ++ [.ro [101, 110, 100] 0, .entry 1]

/-- The hypotheses of `C78_source_partial` are met, see also the example of `C71_source_partial`. -/
example : compileFile (fun _ => (0, 7)) 0 300 writeText = .ok (some writeObject) ∧ writeObject.errs = 0 ∧
    (∀ o ∈ writeOps, o.WF) ∧ costs writeOps < 2 ^ 24 ∧ Emits writeOps writeObject [119] writeName := by
  have hwf : ∀ o ∈ writeOps, o.WF := by
    intro o ho
    simp only [writeOps, List.mem_append, List.mem_cons, List.mem_map, List.not_mem_nil, or_false] at ho
    rcases ho with ((rfl | rfl | rfl | rfl | rfl) | ⟨_, _, rfl⟩) | rfl | rfl <;>
      first
      | trivial
      | (simp [ObjOp.WF, IsCStr, writeName])
  refine ⟨?_, by decide +kernel, hwf, by decide +kernel, ?_⟩
  · have : (match compileFile (fun _ => (0, 7)) 0 300 writeText with
        | .ok (some _) => true
        | _ => false) = true := by decide +kernel
    unfold writeObject
    split at this
    · next h => rw [h]
    · cases this
  · exact ⟨by decide +kernel, by decide +kernel, by decide +kernel, by decide +kernel, by decide +kernel,
      by decide +kernel, by decide +kernel, by decide +kernel, by decide +kernel⟩

/-- Runs all tools and the program. -/
def runTools (os : List ObjOp) (n : Nat) : Option (List Byte) :=
  match runOps create os with
  | .ok p => match fileOf p with
    | .ok o1 => match poptFile o1 with
      | .ok (some o2) => match plinkFiles [o2] with
        | .ok (some exe) => match loadExe exe 16 100 32 with
          | .ok (some (attr, prog, maxpc)) => match startUp attr (fun _ => 0) with
            | .ok s => match runFor (machine barePlatform) prog maxpc n s with
              | .ok (e, t) => if e = eEXIT then some (fileText t .stdout) else none
              | _ => none
            | _ => none
          | _ => none
        | _ => none
      | _ => none
    | _ => none
  | _ => none

set_option maxRecDepth 20000 in
/-- The text of the example, through all the files. -/
example : runTools writeOps 200 = some written := by decide +kernel

/-- C78: what is not an executable for the 16-bit machine is not run: a file written with another type, or
for another machine, is refused by the loader. -/
theorem C78_refused {os : List ObjOp} (hw : ∀ o ∈ os, o.WF) (hsize : costs os + 253 < 2 ^ 32)
    (hf : (contents os).files.length ≤ 1) (hd : (contents os).debug = [] ∨ (contents os).relocs.length ≤ 1)
    (hne : (contents os).ftype ≠ 1#8 ∨ (contents os).arch ≠ 0#8) :
    ∃ p exe, runOps create os = .ok p ∧ fileOf p = .ok exe ∧
      ∀ strSize stkSize hpSize, loadExe exe strSize stkSize hpSize = .ok none := by
  obtain ⟨p, l, h1, h2⟩ := inv_runOps os inv_create hw
  rw [Nat.zero_add] at h2
  have h2' : Inv p (contents os) l (costs os) := h2
  obtain ⟨exe, q, m, w1, w2, w3, _⟩ := back_of_inv h2' (by omega) hf hd
  refine ⟨p, exe, h1, w1, fun _ _ _ => ?_⟩
  simp only [loadExe, w2, Res.ok_bind, w3.ftype, w3.arch]
  rcases hne with h | h
  · rw [if_pos h]
  · split
    · rfl
    · rfl

/-- C78: the linker takes compiled programs and units only: a file of another type is refused. -/
theorem C78_link_refused {os : List ObjOp} (hw : ∀ o ∈ os, o.WF) (hsize : costs os + 253 < 2 ^ 32)
    (hf : (contents os).files.length ≤ 1) (hd : (contents os).debug = [] ∨ (contents os).relocs.length ≤ 1)
    (hne : (contents os).ftype ≠ 3#8) (hne' : (contents os).ftype ≠ 4#8) :
    ∃ p f, runOps create os = .ok p ∧ fileOf p = .ok f ∧ plinkFiles [f] = .ok none := by
  obtain ⟨p, l, h1, h2⟩ := inv_runOps os inv_create hw
  rw [Nat.zero_add] at h2
  have h2' : Inv p (contents os) l (costs os) := h2
  obtain ⟨f, q, m, w1, w2, _, w4⟩ := back_of_inv h2' (by omega) hf hd
  refine ⟨p, f, h1, w1, ?_⟩
  obtain ⟨i, hi, ht⟩ : ∃ i, inputOf q = .ok i ∧ i.ftype = (contents os).ftype := by
    obtain ⟨_, _, u3, ⟨rs, u4, _⟩, u6, u7, u8, u9, _, _⟩ := w4
    simp only [inputOf, u9, u6, u7, u3, u4, Res.ok_bind]
    exact ⟨_, rfl, u8⟩
  simp only [plinkFiles, readInputs, w2, Res.ok_bind, hi, Link.link, List.length_singleton, Nat.reduceGT,
    if_false, Link.loadFiles, Link.loadFile, Link.checkHeader, ht, hne, hne', ne_eq, not_false_eq_true, if_true]

/-- `C78_refused` and `C78_link_refused` are about something: the object of the example is not run, and an
executable is not linked. -/
example : (contents writeOps).ftype ≠ 1#8 ∧ (contents (writeOps ++ [.ftype 1 []])).ftype ≠ 3#8 ∧
    (contents (writeOps ++ [.ftype 1 []])).ftype ≠ 4#8 := by decide +kernel

/-- Two object files as the optimizer leaves them, linked and loaded. -/
def linkAndLoad (os us : List ObjOp) : Option (Res (Option (Attr × List Byte × Word))) :=
  match runOps create os, runOps create us with
  | .ok p, .ok u => match fileOf p, fileOf u with
    | .ok f, .ok g => match plinkFiles [f, g] with
      | .ok (some exe) => some (loadExe exe 16 100 32)
      | _ => none
    | _, _ => none
  | _, _ => none

/-- Violation of C78: a program and a unit, each from a source file of its own (`p` and `u`), nothing but
an END in either: they are linked, but the executable, which has two file names, cannot be loaded: the
loader writes behind the table of file names it has read (`C38_violation_files`). -/
theorem C78_violation_unit :
    (match linkAndLoad [.file [112], .ftype 3 [112], .prog Op.end_.toByte, .entry 0]
        [.file [117], .ftype 4 [117], .prog Op.end_.toByte] with
      | some .ub => true
      | _ => false) = true := by decide +kernel

/-- Violation of C78: the optimizer cannot read a file with a relocation (which the compiler writes for
a variable of a unit): it copies the relocations into a block of no bytes. -/
theorem C78_violation_reloc :
    (match runOps create [.file [112], .ftype 3 [112], .sym ⟨1, 0, 1, some [118], 0, 2⟩, .reloc 2 0 0,
        .prog Op.lds.toByte, .prog 0, .prog 0, .prog 0, .prog Op.end_.toByte, .entry 0] with
      | .ok p => match fileOf p with
        | .ok f => match poptFile f with
          | .ub => true
          | _ => false
        | _ => false
      | _ => false) = true := by decide +kernel

end Pas.Chain

import Verif.Lemmas.Forever
import Verif.Lemmas.Toolchain

/-! Programs that go on forever, on the machine. -/
namespace Pas.Src
open Pas.Spec Pas.Comp Pas.Link

section
variable {line : Nat → Byte × Word} {pad : Byte} {P : Source} {b : S .list}

/-- From the start of a program its statements are reached. -/
theorem codeP_start (lib : Lib) (ok : P.Ok b) (hs : P.size ≤ 32768)
    (hl : P.procs.toks.length + b.toks.length ≤ 65534) {d : Nat} {s : VM} (hsp : s.sp = s.spb)
    (he : s.spb.toNat % 2 = 0) (hr : s.spb.toNat + P.room + 2 * b.need (callRoom P.decls d) + 4 ≤ 2 * s.words)
    (hw : s.words ≤ 32767) (hfp : s.fp.toNat + 10 ≤ s.spb.toNat)
    (hlev : (s.mem (s.fp.toNat / 2 + 4)).toNat % 256 = 0) (hlsp : s.lsp.toNat < 256) {σ : State}
    (hh : (P.env s.spb.toNat).Holds s.mem σ.store)
    (hro : s.rop.toNat + (P.procs.ro pad ++ b.ro pad).length ≤ s.spb.toNat)
    (hcon : ∀ j (h : j < (P.procs.ro pad ++ b.ro pad).length),
      byte s.mem (s.rop.toNat + j) = (P.procs.ro pad ++ b.ro pad)[j])
    (hout : ∀ text, σ.out = some text → (∃ fpu host, lib.sysIo = SysIo.sysIo fpu host) ∧
      OpenOut s 1#16 .stdout text.length ∧ fileText s .stdout = text)
    (hinp : ∀ i, σ.inp = some i → (∃ fpu host, lib.sysIo = SysIo.sysIo fpu host) ∧
      OpenIn s 0#16 .stdin 0 ∧ (s.io.table 0).eoln = false ∧ i = ⟨false, fileText s .stdin⟩) :
    ∃ c, PSteps lib (place (codeP line pad P b)) (codeP line pad P b) (startP line pad P, s) c ∧
      ∀ T : Nat × VM → Prop, LongSim lib (codeP line pad P b) ⟨0, line, pad⟩ (P.env s.spb.toNat)
        (s.spb.toNat / 2 + P.room / 2) (P.procs.ro pad ++ b.ro pad) σ.io (callRoom P.decls d) T (.list b) σ → T c := by
  generalize hR : P.procs.ro pad ++ b.ro pad = R at *
  have h4 := size_pos P
  have hd : P.room % 2 = 0 := by unfold Source.room; omega
  have hd4 : 4 ≤ P.room := by unfold Source.room; omega
  have hat := startP_at (line := line) (pad := pad) (P := P) (b := b)
  obtain ⟨m, h1, k1, k2, k3, k4⟩ := prologue_runs (lib := lib) hd hd4 hsp (by omega) hw
  generalize hp : codeP line pad P b = p at *
  have esp : space (P.room : Int) = [ins .inds 0 P.room] := if_neg (by omega)
  have esn : space (-(P.room : Int)) = [ins .inds 0 (-(P.room : Int))] := if_neg (by omega)
  have ecode : codeB ⟨0, line, pad⟩ 1 P.room b (b.toks.length + 2) (1 + P.procs.labels) (P.procs.ro pad) ++ [ins .end_ 0 0] =
      labI 1 :: ([ins .inds 0 P.room, ins .push 0 0, ins .st 0 0, ins .push 0 1, ins .st 0 2] ++
        (codeS ⟨0, line, pad⟩ b (b.toks.length + 2) (1 + P.procs.labels) (top0 (P.procs.ro pad)) ++
          ([ins .inds 0 (-(P.room : Int))] ++ [ins .end_ 0 0]))) := by
    unfold codeB
    rw [esp, esn, if_pos rfl]
    simp [initial]
  rw [ecode] at hat
  have a2 := hat.tail.right
  have hΓ := Source.env_ok (P := P) (base := s.spb.toNat) (by omega) he (Source.procs_ok ok hl _)
  have hin := Source.env_in (P := P) (s := s) hs (by omega) hw hfp hlev hlsp
  let s1 : VM := { s with
    sp := s.sp + BitVec.ofInt 16 (P.room : Int)
    mem := m }
  have hin1 : (P.env s.spb.toNat).In s1 (s.spb.toNat / 2 + P.room / 2) :=
    Source.env_in (s := s1) hs (by show s.spb.toNat + _ + 4 ≤ 2 * s.words; omega) hw hfp
      (by show (m _).toNat % _ = _; rw [k2 _ (by show s.fp.toNat / 2 + 4 < _; omega)]; exact hlev) hlsp
  have hh1 : (P.env s.spb.toNat).Holds s1.mem σ.store := by
    refine hh.congr fun x hx => k1 _ ?_ (hin.inside x hx)
    have := Source.var_inside hx
    show _ ≤ (s.spb.toNat + x.off.toNat) / 2
    omega
  have ht : s1.top = s.spb.toNat / 2 + P.room / 2 := by
    have := top_add (s := s) (d := P.room) (by rw [hsp]; omega) hd
    refine Eq.trans this ?_
    rw [VM.top, hsp]
  have hgood : Good lib (P.env s.spb.toNat) R (s.spb.toNat / 2 + P.room / 2) σ.io s1 σ := by
    have far : ∀ y a, (P.env s.spb.toNat).vars y → (P.env s.spb.toNat).Owns y a → s.spb.toNat + 4 ≤ a := by
      intro y a hy ha
      have h1 := Source.var_inside hy
      have h2 : s.spb.toNat + y.off.toNat ≤ a := ha.1
      omega
    refine ⟨⟨hh1, fun text htext => ?_, fun i hi => ?_⟩, fun h => by simpa [State.io] using h⟩
    rotate_left
    · obtain ⟨o1, o2, o3, rfl⟩ := hinp i hi
      refine ⟨o1, ⟨0, ⟨o2.1, o2.2, o2.3⟩, ?_⟩, o3, he, ?_, k4, fun y a hy ha => ?_⟩
      · simp only [Bool.false_eq_true, if_false, List.drop_zero]; rfl
      · show s.spb.toNat / 2 ≤ _; omega
      · have := far y a hy ha
        show a / 2 ≠ s.spb.toNat / 2; omega
    obtain ⟨o1, o2, o3⟩ := hout text htext
    refine ⟨o1, ⟨o2.1, o2.2⟩, o3, he, ⟨?_, ?_⟩, k3, fun y a hy ha => ?_, ⟨?_, ?_⟩, fun j hj => ?_, fun y a hy ha => ?_⟩
    · show s.spb.toNat + 2 < 65536; omega
    · show (s.spb.toNat + 2) / 2 ≤ _; omega
    · have := far y a hy ha
      show a / 2 ≠ (s.spb.toNat + 2) / 2; omega
    · show s.rop.toNat + _ ≤ 65535; omega
    · show (s.rop.toNat + _) / 2 ≤ _; omega
    · rw [← hcon j hj]
      show byte m (s.rop.toNat + j) = _
      unfold byte
      rw [k2 _ (by omega)]
    · have := far y a hy ha
      show s.rop.toNat + _ ≤ a; omega
  refine ⟨_, (label_step hat.head s).append (h1.steps (addr := place p) hat.tail.left), fun T hT => ?_⟩
  exact hT
    (b.toks.length + 2) (1 + P.procs.labels) (top0 (P.procs.ro pad)) _ s1 false false (Source.stmts_ok ok _)
    (by rw [← hR]; exact List.prefix_rfl) a2.left hin1 hgood (by
      show (s.sp + BitVec.ofInt 16 (P.room : Int)).toNat % 2 = 0
      have := ofInt_add_toNat s.sp (P.room : Int)
      rw [hsp] at this ⊢
      omega) (by rw [ht]; exact Nat.le_refl _) ⟨by rw [ht]; show _ < s.words; omega, by show s.words ≤ _; omega⟩

/-- The procedures of a program are where their calls go to. -/
theorem codeP_placed (q : Proc) (decl : Decl) (h : declIn P.decls q = some decl) :
    PlacedAt (codeP line pad P b) (P.procs.ro pad ++ b.ro pad) q decl :=
  placed_at line pad (P.block b) 0 0 [] 1 [] 0 codeP_at List.prefix_rfl q decl (P.decl_iff.1 h)

/-- From the start of a program whose statements go on forever any number of steps is made. -/
theorem codeP_long (lib : Lib) (ok : P.Ok b) (hs : P.size ≤ 32768)
    (hl : P.procs.toks.length + b.toks.length ≤ 65534) {d : Nat} {s : VM} (hsp : s.sp = s.spb)
    (he : s.spb.toNat % 2 = 0) (hr : s.spb.toNat + P.room + 2 * b.need (callRoom P.decls d) + 4 ≤ 2 * s.words)
    (hw : s.words ≤ 32767) (hfp : s.fp.toNat + 10 ≤ s.spb.toNat)
    (hlev : (s.mem (s.fp.toNat / 2 + 4)).toNat % 256 = 0) (hlsp : s.lsp.toNat < 256) {σ : State}
    (hx : Forever (P.calls d) (CallsForever (declIn P.decls) d) (.list b) σ)
    (hh : (P.env s.spb.toNat).Holds s.mem σ.store)
    (hro : s.rop.toNat + (P.procs.ro pad ++ b.ro pad).length ≤ s.spb.toNat)
    (hcon : ∀ j (h : j < (P.procs.ro pad ++ b.ro pad).length),
      byte s.mem (s.rop.toNat + j) = (P.procs.ro pad ++ b.ro pad)[j])
    (hout : ∀ text, σ.out = some text → (∃ fpu host, lib.sysIo = SysIo.sysIo fpu host) ∧
      OpenOut s 1#16 .stdout text.length ∧ fileText s .stdout = text)
    (hinp : ∀ i, σ.inp = some i → (∃ fpu host, lib.sysIo = SysIo.sysIo fpu host) ∧
      OpenIn s 0#16 .stdin 0 ∧ (s.io.table 0).eoln = false ∧ i = ⟨false, fileText s .stdin⟩) (n : Nat) :
    Long lib (place (codeP line pad P b)) (codeP line pad P b) n (startP line pad P, s) := by
  obtain ⟨c, h1, h2⟩ := codeP_start (line := line) lib ok hs hl hsp he hr hw hfp hlev hlsp hh hro hcon hout hinp
  have hu := codeP_uniq (line := line) (pad := pad) ok hl
  have hΓ := Source.env_ok (P := P) (base := s.spb.toNat) (by have : P.room = even P.size := rfl; unfold even at this; omega)
    he (Source.procs_ok ok hl _)
  have hcalls := calls_ok (lib := lib) (addr := place (codeP line pad P b)) (ro := P.procs.ro pad ++ b.ro pad)
    (wr := σ.io) (c := callRoom P.decls) hu (Source.decls_ok ok hs hl) codeP_placed (fun k i => place_pcal)
    (callRoom_room P.decls) d (P.env s.spb.toNat) (s.spb.toNat / 2 + P.room / 2) hΓ (P.sees _)
  have hcallsN := calls_long (lib := lib) (addr := place (codeP line pad P b)) (ro := P.procs.ro pad ++ b.ro pad)
    (wr := σ.io) (c := callRoom P.decls) hu (Source.decls_ok ok hs hl) codeP_placed (fun k i => place_pcal)
    (callRoom_room P.decls) d (P.env s.spb.toNat) (s.spb.toNat / 2 + P.room / 2) hΓ (P.sees _)
  obtain ⟨X, hx, hX⟩ := hx
  exact Long.pre h1 (h2 _ (long (g := ⟨0, line, pad⟩) lib _ _ _ σ.io hΓ rfl hu hcalls hcallsN hX n _ _ hx))

/-- From the start of a program whose statements write a text a state with this text is reached. -/
theorem codeP_shows (lib : Lib) (ok : P.Ok b) (hs : P.size ≤ 32768)
    (hl : P.procs.toks.length + b.toks.length ≤ 65534) {d : Nat} {s : VM} (hsp : s.sp = s.spb)
    (he : s.spb.toNat % 2 = 0) (hr : s.spb.toNat + P.room + 2 * b.need (callRoom P.decls d) + 4 ≤ 2 * s.words)
    (hw : s.words ≤ 32767) (hfp : s.fp.toNat + 10 ≤ s.spb.toNat)
    (hlev : (s.mem (s.fp.toNat / 2 + 4)).toNat % 256 = 0) (hlsp : s.lsp.toNat < 256) {σ : State}
    {text : List Byte} {n : Nat}
    (hx : WritesIn (P.calls d) (CallsWrite (declIn P.decls) text d) text n (.list b) σ)
    (hh : (P.env s.spb.toNat).Holds s.mem σ.store)
    (hro : s.rop.toNat + (P.procs.ro pad ++ b.ro pad).length ≤ s.spb.toNat)
    (hcon : ∀ j (h : j < (P.procs.ro pad ++ b.ro pad).length),
      byte s.mem (s.rop.toNat + j) = (P.procs.ro pad ++ b.ro pad)[j])
    (hout : ∀ text, σ.out = some text → (∃ fpu host, lib.sysIo = SysIo.sysIo fpu host) ∧
      OpenOut s 1#16 .stdout text.length ∧ fileText s .stdout = text)
    (hinp : ∀ i, σ.inp = some i → (∃ fpu host, lib.sysIo = SysIo.sysIo fpu host) ∧
      OpenIn s 0#16 .stdin 0 ∧ (s.io.table 0).eoln = false ∧ i = ⟨false, fileText s .stdin⟩) :
    Shows lib (place (codeP line pad P b)) (codeP line pad P b) text (startP line pad P, s) := by
  obtain ⟨c, h1, h2⟩ := codeP_start (line := line) lib ok hs hl hsp he hr hw hfp hlev hlsp hh hro hcon hout hinp
  have hu := codeP_uniq (line := line) (pad := pad) ok hl
  have hΓ := Source.env_ok (P := P) (base := s.spb.toNat) (by have : P.room = even P.size := rfl; unfold even at this; omega)
    he (Source.procs_ok ok hl _)
  have hcalls := calls_ok (lib := lib) (addr := place (codeP line pad P b)) (ro := P.procs.ro pad ++ b.ro pad)
    (wr := σ.io) (c := callRoom P.decls) hu (Source.decls_ok ok hs hl) codeP_placed (fun k i => place_pcal)
    (callRoom_room P.decls) d (P.env s.spb.toNat) (s.spb.toNat / 2 + P.room / 2) hΓ (P.sees _)
  have hcallsN := calls_show (lib := lib) (addr := place (codeP line pad P b)) (ro := P.procs.ro pad ++ b.ro pad)
    (wr := σ.io) (c := callRoom P.decls) hu (Source.decls_ok ok hs hl) codeP_placed (fun k i => place_pcal)
    (callRoom_room P.decls) text d (P.env s.spb.toNat) (s.spb.toNat / 2 + P.room / 2) hΓ (P.sees _)
  exact shows_back h1 (h2 _ (shows (g := ⟨0, line, pad⟩) lib _ _ _ σ.io hΓ rfl hu hcalls hcallsN n _ _ hx))

end

end Pas.Src

import Verif.Lemmas.Chain
import Verif.Props.Lines
import Verif.Props.Listing
import Verif.Spec.LineTable

/-! Property C85: the table in which the source line of an address is found. -/
namespace Pas.Props
open Pas.Poff Pas.Spec Pas.Spec.Listing

theorem fileLoop_get {p : Poff} : ∀ (n i : Nat) (fs : List (List Byte)), fileLoop p n i = .ok fs →
    ∀ k, i ≤ k → k - i < fs.length → k * 4 ≤ (p.sh .filetab).size.toNat ∧ 4 * k + 4 ≤ (p.data .filetab).length ∧
      getString p.strs (rd32 (p.data .filetab) (4 * k)).toNat = .ok (fs.getD (k - i) []) := by
  intro n
  induction n with
  | zero =>
    intro i fs h k hk hl
    unfold fileLoop at h
    split at h
    · injection h with h; subst h; simp at hl
    · cases h
  | succ n ih =>
    intro i fs h k hk hl
    unfold fileLoop at h
    split at h
    · injection h with h; subst h; simp at hl
    split at h
    · cases h
    rename_i h1 h2
    rw [Res.bind_eq_ok] at h
    obtain ⟨s, hs, h⟩ := h
    rw [Res.bind_eq_ok] at h
    obtain ⟨r, hr, h⟩ := h
    injection h with h; subst h
    by_cases hki : k = i
    · subst hki
      refine ⟨by omega, by omega, ?_⟩
      rw [hs, Nat.sub_self]; rfl
    · have := ih (i + 1) r hr k (by omega) (by simp at hl; omega)
      refine ⟨this.1, this.2.1, ?_⟩
      rw [this.2.2]
      have e : k - i = (k - (i + 1)) + 1 := by omega
      rw [e]; rfl

theorem lineLoop_raw {p : Poff} {fs : List (List Byte)} (hf : p.files = .ok fs)
    (hs : (p.sh .lineno).size.toNat ≤ 2 ^ 31) :
    ∀ (n i : Nat) (ls : List (Word × Word × U32)), rawLineLoop p n i = .ok ls →
      (∀ l ∈ ls, l.2.1.toNat < fs.length) → lineLoop p (n + 1) i = .ok (some (ls.map (withName fs))) := by
  intro n
  induction n with
  | zero =>
    intro i ls h _
    unfold rawLineLoop at h
    split at h
    · rename_i hi
      injection h with h; subst h
      simp [lineLoop, getLine, hi]
    · cases h
  | succ n ih =>
    intro i ls h hl
    unfold rawLineLoop at h
    split at h
    · rename_i hi
      injection h with h; subst h
      simp [lineLoop, getLine, hi]
    split at h
    · cases h
    rename_i h1 h2
    simp only at h
    rw [Res.bind_eq_ok] at h
    obtain ⟨r, hr, h⟩ := h
    injection h with h; subst h
    have hk := hl _ (List.mem_cons_self ..)
    simp only at hk
    obtain ⟨g1, g2, g3⟩ := fileLoop_get _ 0 fs hf _ (Nat.zero_le _) (by simpa using hk)
    rw [lineLoop, getLine, if_neg h1, if_neg h2]
    simp only
    rw [if_neg (by omega), if_neg (by omega), g3]
    simp only [Res.ok_bind]
    have := (p.sh .lineno).entsize.isLt
    rw [if_neg (by omega), Nat.mod_eq_of_lt (by omega), ih _ _ hr (fun l hl' => hl l (List.mem_cons_of_mem _ hl'))]
    rfl

/-- C85 (partial): whatever object file has been read, if its line numbers and its file names can be read and every line
belongs to one of the files, then the table has exactly these lines, each with the name of its file, sorted by their
offsets.  Missing: lines with a wrong number of a file, where the check is wrong (`C85_violation_check`), and tables
of 2^31 bytes. -/
theorem C85_table_partial (sort : List LineEntry → List LineEntry) (hsort : Sorts sort) (p : Poff)
    {fs : List (List Byte)} {ls : List (Word × Word × U32)} (hf : p.files = .ok fs) (hl : p.rawLines = .ok ls)
    (hs : (p.sh .lineno).size.toNat ≤ 2 ^ 31)
    (hin : ∀ l ∈ ls, l.2.1.toNat < fs.length) :
    ∃ t, readLines sort p = .ok (some t) ∧ Recorded fs ls t ∧ SortedLines t := by
  refine ⟨sort (ls.map (withName fs)), ?_, (hsort _).1, (hsort _).2⟩
  rw [readLines, lineLoop_raw hf hs _ _ _ hl hin]
  rfl

theorem fileLoop_size {p : Poff} : ∀ (n i : Nat) (fs : List (List Byte)), fileLoop p n i = .ok fs →
    (p.sh .filetab).size.toNat ≤ 4 * (i + fs.length) := by
  intro n
  induction n with
  | zero =>
    intro i fs h
    unfold fileLoop at h
    split at h
    · omega
    · cases h
  | succ n ih =>
    intro i fs h
    unfold fileLoop at h
    split at h
    · omega
    split at h
    · cases h
    rw [Res.bind_eq_ok] at h
    obtain ⟨s, _, h⟩ := h
    rw [Res.bind_eq_ok] at h
    obtain ⟨r, hr, h⟩ := h
    injection h with h; subst h
    have := ih _ _ hr
    simp only [List.length_cons]; omega

theorem lineLoop_bad {p : Poff} {fs : List (List Byte)} (hf : p.files = .ok fs)
    (hs : (p.sh .lineno).size.toNat ≤ 2 ^ 31) (bad : Word × Word × U32) (hb : fs.length < bad.2.1.toNat)
    (post : List (Word × Word × U32)) :
    ∀ (pre : List (Word × Word × U32)) (n i : Nat), rawLineLoop p n i = .ok (pre ++ bad :: post) →
      (∀ l ∈ pre, l.2.1.toNat < fs.length) → lineLoop p (n + 1) i = .ok none := by
  have hfs := fileLoop_size _ _ _ hf
  intro pre
  induction pre with
  | nil =>
    intro n i h _
    cases n with
    | zero => unfold rawLineLoop at h; split at h <;> simp at h
    | succ n =>
      unfold rawLineLoop at h
      split at h
      · simp at h
      split at h
      · cases h
      rename_i h1 h2
      simp only at h
      rw [Res.bind_eq_ok] at h
      obtain ⟨r, hr, h⟩ := h
      simp only [Res.ok.injEq, List.nil_append, List.cons.injEq] at h
      obtain ⟨rfl, rfl⟩ := h
      simp only at hb
      rw [lineLoop, getLine, if_neg h1, if_neg h2]
      simp only
      rw [if_pos (by omega)]
      rfl
  | cons l pre ih =>
    intro n i h hl
    cases n with
    | zero => unfold rawLineLoop at h; split at h <;> simp at h
    | succ n =>
      unfold rawLineLoop at h
      split at h
      · simp at h
      split at h
      · cases h
      rename_i h1 h2
      simp only at h
      rw [Res.bind_eq_ok] at h
      obtain ⟨r, hr, h⟩ := h
      simp only [Res.ok.injEq, List.cons_append, List.cons.injEq] at h
      obtain ⟨rfl, rfl⟩ := h
      have hk := hl _ (List.mem_cons_self ..)
      simp only at hk
      obtain ⟨g1, g2, g3⟩ := fileLoop_get _ 0 fs hf _ (Nat.zero_le _) (by simpa using hk)
      rw [lineLoop, getLine, if_neg h1, if_neg h2]
      simp only
      rw [if_neg (by omega), if_neg (by omega), g3]
      simp only [Res.ok_bind]
      have := (p.sh .lineno).entsize.isLt
      rw [if_neg (by omega), Nat.mod_eq_of_lt (by omega), ih _ _ hr (fun l hl' => hl l (List.mem_cons_of_mem _ hl'))]
      rfl

/-- C85 (partial): an object file in which a line has the number of a file that does not exist is rejected, wherever
this line is behind lines of files that do exist.  Partial: not the number just behind the last file
(`C85_violation_check`). -/
theorem C85_reject_partial (sort : List LineEntry → List LineEntry) (p : Poff) {fs : List (List Byte)}
    {pre post : List (Word × Word × U32)} {bad : Word × Word × U32} (hf : p.files = .ok fs)
    (hl : p.rawLines = .ok (pre ++ bad :: post)) (hs : (p.sh .lineno).size.toNat ≤ 2 ^ 31)
    (hin : ∀ l ∈ pre, l.2.1.toNat < fs.length) (hbad : fs.length < bad.2.1.toNat) :
    readLines sort p = .ok none ∧ listing sort p = .ok none := by
  have h : readLines sort p = .ok none := by
    rw [readLines, lineLoop_bad hf hs bad hbad post pre _ _ hl hin]
    rfl
  exact ⟨h, by rw [listing, h]; rfl⟩

example : ∃ p : Poff, p.files = .ok [[102]] ∧ p.rawLines = .ok ([(7, 0, 3)] ++ (8, 2, 5) :: [(9, 0, 6)]) ∧
    (p.sh .lineno).size.toNat ≤ 2 ^ 31 :=
  ⟨{ create with
      sh := fun k => match k with
        | .lineno => ⟨6, 0, 8, 0, 0, 0, 24⟩
        | .filetab => ⟨5, 0, 4, 0, 0, 0, 4⟩
        | .strtab => ⟨3, 0, 0, 0, 0, 0, 3⟩
        | k => freshSh k
      data := fun k => match k with
        | .lineno => [7, 0, 0, 0, 3, 0, 0, 0, 8, 0, 2, 0, 5, 0, 0, 0, 9, 0, 0, 0, 6, 0, 0, 0]
        | .filetab => [1, 0, 0, 0]
        | .strtab => [0, 102, 0]
        | _ => [] }, by decide, by decide, by decide⟩

/-- Writing an object and reading it. -/
theorem read_back (os : List ObjOp) (hw : ∀ o ∈ os, o.WF) (hsize : costs os + 253 < 2 ^ 31)
    (hf : (contents os).files.length ≤ 1) (hd : (contents os).debug = [] ∨ (contents os).relocs.length ≤ 1) :
    ∃ p f p' q, runOps create os = .ok p ∧ writeFile p = .ok (f, p') ∧ readFile f = .ok (.ok q) ∧
      q.files = .ok (contents os).files ∧ q.rawLines = .ok (contents os).lines ∧
      (∀ k, (q.sh k).size.toNat = (q.data k).length) ∧
      (q.data .lineno).length ≤ 2 ^ 31 ∧ (q.data .filetab).length = 4 * (contents os).files.length ∧
      q.data .lineno = (contents os).lines.flatMap lineImg := by
  obtain ⟨p, l, h1, h2⟩ := inv_runOps os inv_create hw
  rw [Nat.zero_add] at h2
  have h2' : Inv p (contents os) l (costs os) := h2
  obtain ⟨f, q, m, w1, w2, back, hq⟩ := Chain.back_of_inv h2' (by omega) hf hd
  unfold Chain.fileOf at w1
  rw [Res.bind_eq_ok] at w1
  obtain ⟨⟨f', p'⟩, w1, w3⟩ := w1
  injection w3 with w3
  subst w3
  obtain ⟨_, _, _, _, hfiles, hlines, _⟩ := hq
  refine ⟨p, f', p', q, h1, w1, w2, hfiles, hlines, ?_, ?_, ?_, back.lineno⟩
  · intro k
    rw [back.sizes, BitVec.toNat_ofNat, Nat.mod_eq_of_lt (back.small k)]
  · have := back.size
    unfold total at this
    omega
  · rw [back.filetab]
    generalize (contents os).files = fs
    induction fs with
    | nil => rfl
    | cons x fs ih => rw [List.flatMap_cons, List.length_append, ih]; simp [fileImg, le32]; omega

/-- C85 with C38 and C41 (partial, as these): build an object by any history of calls in which every line belongs to a
file that is recorded, write it, read it and read its line numbers.  Then after any history of lookups an address below
the last line is given a recorded line with the name of the file: the closest one at or before it. -/
theorem C85_lookup_partial (sort : List LineEntry → List LineEntry) (hsort : Sorts sort) (os : List ObjOp)
    (hw : ∀ o ∈ os, o.WF) (hsize : costs os + 253 < 2 ^ 31) (hf : (contents os).files.length ≤ 1)
    (hd : (contents os).debug = [] ∨ (contents os).relocs.length ≤ 1)
    (hin : ∀ l ∈ (contents os).lines, l.2.1.toNat < (contents os).files.length) :
    ∃ p f p' q t, runOps create os = .ok p ∧ writeFile p = .ok (f, p') ∧ readFile f = .ok (.ok q) ∧
      readLines sort q = .ok (some t) ∧
      ∀ (hist : List Nat) (rs : List (Option LineEntry)) (prev : Nat), lookups t 0 hist = .ok (rs, prev) →
        ∀ off : Nat, (∃ l ∈ (contents os).lines, off < l.2.2.toNat) →
          ∃ r prev', findLine t prev off = .ok (r, prev') ∧
            ((∃ l ∈ (contents os).lines, r = some (withName (contents os).files l) ∧ l.2.2.toNat ≤ off ∧
                ∀ l' ∈ (contents os).lines, l'.2.2.toNat ≤ off → l'.2.2.toNat ≤ l.2.2.toNat) ∨
             (r = none ∧ ∀ l ∈ (contents os).lines, off < l.2.2.toNat)) := by
  obtain ⟨p, f, p', q, h1, h2, h3, hfiles, hlines, hsz, hsm, _, _⟩ := read_back os hw hsize hf hd
  obtain ⟨t, ht, hrec, hso⟩ := C85_table_partial sort hsort q hfiles hlines (by rw [hsz]; omega) hin
  refine ⟨p, f, p', q, t, h1, h2, h3, ht, ?_⟩
  intro hist rs prev hh off ⟨l0, hl0, hoff⟩
  have hmem : ∀ e, e ∈ t ↔ ∃ l ∈ (contents os).lines, withName (contents os).files l = e := fun e => by
    rw [hrec.mem_iff, List.mem_map]
  obtain ⟨e, hlast⟩ : ∃ e, t.getLast? = some e := by
    cases hg : t.getLast? with
    | some e => exact ⟨e, rfl⟩
    | none =>
      rw [List.getLast?_eq_none_iff] at hg
      have := (hmem _).2 ⟨l0, hl0, rfl⟩
      rw [hg] at this; cases this
  have hoff' : off < e.offset := by
    obtain ⟨i, hi⟩ := List.mem_iff_getElem?.1 ((hmem _).2 ⟨l0, hl0, rfl⟩)
    rw [List.getLast?_eq_getElem?] at hlast
    have hil : i < t.length := by
      rcases Nat.lt_or_ge i t.length with h | h
      · exact h
      · rw [List.getElem?_eq_none h] at hi; cases hi
    by_cases hie : i = t.length - 1
    · rw [hie, hlast] at hi
      injection hi with hi
      rw [hi]; exact hoff
    · have := hso i (t.length - 1) _ _ (by omega) hi hlast
      exact Nat.lt_of_lt_of_le hoff this
  obtain ⟨r, prev', hr, hres⟩ := C41_lookup_partial t hso hh off ⟨e, hlast, hoff'⟩
  refine ⟨r, prev', hr, ?_⟩
  rcases hres with ⟨e, rfl, h1, h2, h3⟩ | ⟨rfl, h1⟩
  · obtain ⟨l, hl, rfl⟩ := (hmem _).1 h1
    exact .inl ⟨l, hl, rfl, h2, fun l' hl' ho => h3 _ ((hmem _).2 ⟨l', hl', rfl⟩) ho⟩
  · exact .inr ⟨rfl, fun l hl => h1 _ ((hmem _).2 ⟨l, hl, rfl⟩)⟩

/-- The hypotheses are met: an order that sorts exists, and so does such a history. -/
example : (∃ sort, Sorts sort) ∧ (∀ o ∈ sampleOps, o.WF) ∧ costs sampleOps + 253 < 2 ^ 31 ∧
    (contents sampleOps).files.length ≤ 1 ∧ (contents sampleOps).relocs.length ≤ 1 ∧
    (contents sampleOps).lines.length = 2 ∧
    ∀ l ∈ (contents sampleOps).lines, l.2.1.toNat < (contents sampleOps).files.length := by
  refine ⟨⟨fun t => t.mergeSort fun a b => a.offset ≤ b.offset, fun t => ⟨List.mergeSort_perm .., ?_⟩⟩, ?_, by decide,
    by decide, by decide, by decide, by decide⟩
  · intro i j a b hij ha hb
    have := List.pairwise_mergeSort (le := fun a b : LineEntry => decide (a.offset ≤ b.offset))
      (fun a b c h1 h2 => by simp at h1 h2 ⊢; omega) (fun a b => by simp; omega) t
    obtain ⟨hi, ha⟩ := List.getElem?_eq_some_iff.1 ha
    obtain ⟨hj, hb⟩ := List.getElem?_eq_some_iff.1 hb
    have := List.pairwise_iff_getElem.1 this i j hi hj hij
    rw [ha, hb] at this
    simpa using this
  · intro o ho
    simp only [sampleOps, List.mem_cons, List.not_mem_nil, or_false] at ho
    rcases ho with rfl | rfl | rfl | rfl | rfl | rfl | rfl | rfl | rfl | rfl | rfl | rfl | rfl | rfl <;>
      simp [ObjOp.WF, IsCStr, textOf]

/-- The table of lines at different offsets. -/
theorem strict_of_recorded {fs : List (List Byte)} {ls : List (Word × Word × U32)} {t : List LineEntry}
    (hr : Recorded fs ls t) (hs : SortedLines t) (hd : (ls.map fun l => l.2.2).Nodup) : StrictLines t := by
  have hn : (t.map (·.offset)).Nodup := by
    rw [(hr.map (·.offset)).nodup_iff, List.map_map]
    have : ((fun e : LineEntry => e.offset) ∘ withName fs) = (fun x : U32 => x.toNat) ∘ fun l : Word × Word × U32 => l.2.2 := rfl
    rw [this, ← List.map_map]
    refine List.pairwise_map.2 (hd.imp ?_)
    intro a b hab he
    exact hab (BitVec.eq_of_toNat_eq he)
  intro i j a b hij ha hb
  have hle := hs i j a b hij ha hb
  obtain ⟨hi, ha'⟩ := List.getElem?_eq_some_iff.1 ha
  obtain ⟨hj, hb'⟩ := List.getElem?_eq_some_iff.1 hb
  have := List.pairwise_iff_getElem.1 hn i j (by simpa using hi) (by simpa using hj) hij
  simp only [List.getElem_map, ha', hb'] at this
  omega

/-- C85 with C76 (partial, as both): the listing of an object file whose lines have different offsets and belong to its
files has a line for each instruction, below the heading with the file and the line of the source that were recorded
for its address, if one of the lines is recorded for an address behind the program or there is only one. -/
theorem C85_listing_partial (sort : List LineEntry → List LineEntry) (hsort : Sorts sort) (p : Poff)
    {fs : List (List Byte)} {ls : List (Word × Word × U32)} (hf : p.files = .ok fs) (hl : p.rawLines = .ok ls)
    (hs : (p.sh .lineno).size.toNat ≤ 2 ^ 31) (hin : ∀ l ∈ ls, l.2.1.toNat < fs.length)
    (hd : (ls.map fun l => l.2.2).Nodup) (is : List OpType) (hp : p.program = is.flatMap encoded)
    (hi : ∀ i ∈ is, Proper i) (hn : p.program.length < 2 ^ 32)
    (hc : ls.length ≤ 1 ∨ ∃ l ∈ ls, p.program.length ≤ l.2.2.toNat) :
    ∃ t text, Recorded fs ls t ∧ listing sort p = .ok (some text) ∧ Listing t none 0 is text := by
  obtain ⟨t, h1, h2, h3⟩ := C85_table_partial sort hsort p hf hl hs hin
  have hst := strict_of_recorded h2 h3 hd
  obtain ⟨text, h4, h5⟩ := C76_listing_partial t is hi hst (fun e he => by
      obtain ⟨l, _, rfl⟩ := List.mem_map.1 (h2.mem_iff.1 he)
      have := l.1.isLt
      simp only [withName]; omega) (by rw [← hp]; exact hn) (by
      have hlen : t.length = ls.length := by rw [h2.length_eq, List.length_map]
      rcases hc with hc | ⟨l, hl', ho⟩
      · left; omega
      · right
        have hm : withName fs l ∈ t := h2.mem_iff.2 (List.mem_map.2 ⟨l, hl', rfl⟩)
        cases hg : t.getLast? with
        | none => rw [List.getLast?_eq_none_iff] at hg; rw [hg] at hm; cases hm
        | some e =>
          refine ⟨e, rfl, ?_⟩
          obtain ⟨i, hi'⟩ := List.mem_iff_getElem?.1 hm
          rw [List.getLast?_eq_getElem?] at hg
          rw [← hp]
          obtain ⟨hil, _⟩ := List.getElem?_eq_some_iff.1 hi'
          by_cases hie : i = t.length - 1
          · rw [hie, hg] at hi'; injection hi' with hi'; rw [hi']; exact ho
          · exact Nat.le_trans ho (h3 i (t.length - 1) _ _ (by omega) hi' hg))
  refine ⟨t, text, h2, ?_, h5⟩
  rw [listing, h1]
  simp only [Res.ok_bind]
  rw [hp, h4]
  rfl

/-- The hypotheses are met by an object with the instruction PUSHB 5 and two lines, which is read from its file. -/
example : ∃ (f : List Byte) (q : Poff), readFile f = .ok (.ok q) ∧ q.files = .ok [[0x66]] ∧
    q.rawLines = .ok [(3, 0, 2), (2, 0, 0)] ∧ (q.sh .lineno).size.toNat ≤ 2 ^ 31 ∧
    q.program = [(⟨Op.pushb.toByte, 5#8, 0#16⟩ : OpType)].flatMap encoded ∧
    Proper ⟨Op.pushb.toByte, 5#8, 0#16⟩ ∧
    (∃ l ∈ ([(3, 0, 2), (2, 0, 0)] : List (Word × Word × U32)), q.program.length ≤ l.2.2.toNat) := by
  have hw : ∀ o ∈ ([.prog Op.pushb.toByte, .prog 5, .file [0x66], .line 3 0 2, .line 2 0 0] : List ObjOp), o.WF := by
    simp [ObjOp.WF, IsCStr]
  obtain ⟨p, f, p', q, h1, h2, h3, h4, h5, h6, h7, _, _⟩ := read_back _ hw (by decide) (by decide) (.inl rfl)
  obtain ⟨_, _, _, q', g1, g2, g3, g4, _⟩ := C38_roundtrip_partial _ hw (by decide) (by decide) (.inl rfl)
  rw [h1] at g1; injection g1 with g1; subst g1
  rw [h2] at g2; injection g2 with g2; injection g2 with g2 _; subst g2
  rw [h3] at g3; injection g3 with g3; injection g3 with g3; subst g3
  have hp : q.program = [Op.pushb.toByte, 5] := g4.1
  refine ⟨f, q, h3, h4, h5, by rw [h6]; exact h7, by rw [hp]; decide, ?_, ⟨(3, 0, 2), by simp, by rw [hp]; decide⟩⟩
  exact ⟨⟨.pushb, rfl, by decide, fun h => absurd h (by decide), fun h => absurd h (by decide), by decide⟩, by decide, by decide⟩

/-- C85 fails where the number of a file is just behind the last one: the check lets it pass and the name is read outside
the table of file names, whatever else is in the object file. -/
theorem C85_violation_check (sort : List LineEntry → List LineEntry) (os : List ObjOp)
    (hw : ∀ o ∈ os, o.WF) (hsize : costs os + 253 < 2 ^ 31) (hf : (contents os).files.length ≤ 1)
    (hd : (contents os).debug = [] ∨ (contents os).relocs.length ≤ 1) {line file : Word} {off : U32}
    {ls : List (Word × Word × U32)} (hl : (contents os).lines = (line, file, off) :: ls)
    (hin : file.toNat = (contents os).files.length) :
    ∃ p f p' q, runOps create os = .ok p ∧ writeFile p = .ok (f, p') ∧ readFile f = .ok (.ok q) ∧
      readLines sort q = .ub := by
  obtain ⟨p, f, p', q, h1, h2, h3, hfiles, hlines, hsz, hsm, hft, hln⟩ := read_back os hw hsize hf hd
  refine ⟨p, f, p', q, h1, h2, h3, ?_⟩
  have hn : (q.data .lineno).length = 8 + (ls.flatMap lineImg).length := by
    rw [hln, hl, List.flatMap_cons, List.length_append]
    simp [lineImg, le16, le32]
  have hfile : rd16 (q.data .lineno) 2 = file := by
    rw [hl, Poff.rawLines, hn, Nat.add_comm, rawLineLoop, if_neg (by rw [hsz]; omega), if_neg (by omega)] at hlines
    simp only at hlines
    rw [Res.bind_eq_ok] at hlines
    obtain ⟨r, _, hlines⟩ := hlines
    injection hlines with hlines; injection hlines with hlines _; injection hlines with _ hlines
    injection hlines
  rw [readLines, lineLoop, getLine, if_neg (by rw [hsz]; omega), if_neg (by omega)]
  simp only [Nat.zero_add]
  rw [hfile, if_neg (by rw [hsz]; omega), if_pos (by omega)]
  rfl

example : ∃ os : List ObjOp, (∀ o ∈ os, o.WF) ∧ costs os + 253 < 2 ^ 31 ∧ (contents os).files.length ≤ 1 ∧
    (contents os).debug = [] ∧ ∃ ls, (contents os).lines = (10#16, 1#16, 0#32) :: ls ∧
    (1#16).toNat = (contents os).files.length :=
  ⟨[.file [0x66, 0x2E, 0x70], .line 10 1 0], by simp [ObjOp.WF, IsCStr], by decide, by decide, rfl, [], rfl, rfl⟩

/-- C85 fails for object files that say that an entry of the line number table has no bytes: the first line is read again
and again, and the table grows until there is no memory. -/
theorem C85_violation_entry (p : Poff) (hent : (p.sh .lineno).entsize = 0) {e : LineEntry} {next : Nat}
    (h : getLine p 0 = .ok (.line e next)) : ∀ fuel, lineLoop p fuel 0 = .hang := by
  have hn : next = 0 := by
    unfold getLine at h
    split at h
    · cases h
    split at h
    · cases h
    simp only at h
    split at h
    · cases h
    split at h
    · cases h
    rw [Res.bind_eq_ok] at h
    obtain ⟨s, _, h⟩ := h
    injection h with h; injection h with _ h
    rw [← h, hent]; rfl
  subst hn
  intro fuel
  induction fuel with
  | zero => rfl
  | succ fuel ih =>
    rw [lineLoop, h]
    simp only [Res.ok_bind]
    rw [if_neg (by decide), ih]
    rfl

example : ∃ p : Poff, (p.sh .lineno).entsize = 0 ∧ getLine p 0 = .ok (.line ⟨7, [102], 3⟩ 0) :=
  ⟨{ create with
      sh := fun k => match k with
        | .lineno => ⟨6, 0, 0, 0, 0, 0, 8⟩
        | .filetab => ⟨5, 0, 4, 0, 0, 0, 4⟩
        | .strtab => ⟨3, 0, 0, 0, 0, 0, 3⟩
        | k => freshSh k
      data := fun k => match k with
        | .lineno => [7, 0, 0, 0, 3, 0, 0, 0]
        | .filetab => [1, 0, 0, 0]
        | .strtab => [0, 102, 0]
        | _ => [] }, rfl, by decide⟩

end Pas.Props

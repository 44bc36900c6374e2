import Verif.Lemmas.Forever
import Verif.Lemmas.ProgRun
import Verif.Model.Toolchain
import Verif.Props.Labels2
import Verif.Props.Link
import Verif.Props.Startup

/-! Lemmas about the chain of tools. -/
namespace Pas.Src
open Pas.Spec Pas.Comp Pas.Link

theorem idxI_length (a : Arr) : (idxI a).length ≤ 4 := by
  unfold idxI
  split <;> split <;> simp

theorem code_length (lev : Nat) {l : Lvl} (e : E l) : ∀ x, (code lev x e).length ≤ 2 * e.toks.length := by
  induction e with
  | term sg t ih =>
    intro x
    have := ih x
    cases sg with
    | none => simpa [code, E.toks] using this
    | some sg => cases sg <;> simp [code, E.toks] <;> omega
  | mul t op f ih ih' =>
    intro x
    have := ih x; have := ih' (x.second op)
    simp [code, E.toks]; omega
  | add t op f ih ih' =>
    intro x
    have := ih x; have := ih' (x.later ((t.typeOf x).getD .bool))
    simp [code, E.toks]; omega
  | rel t op f ih ih' =>
    intro x
    have := ih x; have := ih' x
    simp [code, E.toks]; omega
  | paren e ih => intro x; have := ih .any; simp [code, E.toks]; omega
  | call f e ih =>
    intro x
    have := ih f.expect
    have h : (callI f ((e.typeOf f.expect).getD .bool)).length ≤ 3 := by cases f <;> simp [callI]
    simp [code, E.toks]; omega
  | index a e ih =>
    intro x
    have := ih (.a (.num .integer))
    have := idxI_length a
    simp [code, E.toks]; omega
  | not tl f ih => intro x; have := ih x; simp [code, E.toks]; omega
  | factor f ih => intro x; simpa [code, E.toks] using ih x
  | simple f ih => intro x; simpa [code, E.toks] using ih x
  | _ => intro x; simp [code, E.toks]

theorem codeK_length (st nx : Nat) (ks : List Const) : ∀ k,
    (codeK st nx k ks).length ≤ 3 * (constToks k ks).length := by
  induction ks with
  | nil => intro k; simp [codeK, constToks]
  | cons k' ks ih => intro k; have := ih k'; simp [codeK, constToks]; omega

theorem codeI_length (lev r : Nat) (i : Item) : (codeI lev r i).length ≤ 6 * i.toks.length := by
  cases i with
  | val e w =>
    have h1 := code_length lev e .any
    have h2 := toks_pos e
    cases w with
    | none => simp [codeI, codeW, Item.toks]; omega
    | some w =>
      have h3 := code_length lev w (.a (.num .shortInteger))
      simp [codeI, codeW, Item.toks]; omega
  | str t => simp [codeI, Item.toks]

theorem codeIs_length (lev : Nat) (p : Byte) (is : List Item) : ∀ r i,
    (codeIs lev p r (i :: is)).length ≤ 6 * (itemToks i is).length := by
  induction is with
  | nil => intro r i; have := codeI_length lev r i; simpa [codeIs, itemToks] using this
  | cons j is ih =>
    intro r i
    have := codeI_length lev r i
    have := ih (r + (i.ro p).length) j
    rw [codeIs, List.length_append]
    simp only [itemToks, List.length_append, List.length_cons]
    omega

theorem codeVs_length (lev : Nat) (xs : List Variable) : ∀ x,
    (codeVs lev (x :: xs)).length ≤ 6 * (readToks x xs).length := by
  induction xs with
  | nil => intro x; simp [codeVs, codeV, readToks]
  | cons y xs ih =>
    intro x
    have := ih y
    rw [codeVs, List.length_append]
    simp only [readToks, List.length_cons, codeV, List.length_nil]
    omega

theorem codeA_length (lev : Nat) (es : List (E .expr)) : ∀ ts,
    (codeA lev ts es).length ≤ 2 * (argToks es).length := by
  induction es with
  | nil => intro ts; cases ts <;> simp [codeA]
  | cons e es ih =>
    intro ts
    cases ts with
    | nil => simp [codeA]
    | cons t ts =>
      have h1 := code_length lev e (.a t)
      have h2 := ih ts
      cases es with
      | nil => cases ts <;> simp [codeA, argToks] <;> omega
      | cons e' es =>
        simp only [codeA, argToks, List.length_append, List.length_cons] at h2 ⊢
        omega

/-- The number of instructions is linear in the number of tokens. -/
theorem codeS_length (g : Cfg) {k : SK} (st : S k) : ∀ m l x,
    (codeS g st m l x).length ≤ 12 * (st.toks.length + 1) := by
  induction st with
  | empty => intro m l x; simp [codeS, S.toks]
  | assign y e =>
    intro m l x
    have := code_length g.level e (.a y.ty)
    simp [codeS, S.toks]; omega
  | assignAt a i e =>
    intro m l x
    have := code_length g.level e (.a a.ty)
    have := code_length g.level i (.a (.num .integer))
    have := idxI_length a
    simp [codeS, S.toks]; omega
  | ifThen e s ih =>
    intro m l x
    have := code_length g.level e (.a .bool)
    have := ih (m - (e.toks.length + 2)) (l + 1) x
    simp [codeS, S.toks]; omega
  | ifElse e s t ih ih' =>
    intro m l x
    have := code_length g.level e (.a .bool)
    have := ih (m - (e.toks.length + 2)) (l + 1) x
    have := ih' (m - (e.toks.length + s.toks.length + 3)) (l + 2 + s.nlab) { x with ro := x.ro ++ s.ro g.pad }
    simp [codeS, S.toks]; omega
  | while_ e s ih =>
    intro m l x
    have := code_length g.level e (.a .bool)
    have := ih (m - (e.toks.length + 2)) (l + 2) ⟨l + 1, l + 2, 0, 0, 0, x.ro⟩
    simp [codeS, S.toks]; omega
  | repeat_ ls e ih =>
    intro m l x
    have := code_length g.level e (.a .bool)
    have := ih (m - 1) (l + 2) ⟨l + 1, l + 2, 0, 0, 0, x.ro⟩
    simp [codeS, S.toks]; omega
  | for_ y down a c s ih =>
    intro m l x
    have := code_length g.level a (.a y.ty)
    have := code_length g.level c (.a y.ty)
    have := ih (m - (a.toks.length + c.toks.length + 5)) (l + 3) ⟨l + 3, l + 2, 0, 0, 0, x.ro⟩
    simp [codeS, S.toks]; omega
  | case_ e cs ih =>
    intro m l x
    have := code_length g.level e .ordinal
    have := ih (m - (e.toks.length + 2)) (l + 2) ⟨x.cont, x.brk, x.adj - 2, l + 1, l + 2, x.ro⟩
    simp [codeS, S.toks]; omega
  | block ls ih =>
    intro m l x
    have := ih (m - 1) l x
    simp [codeS, S.toks]; omega
  | break_ => intro m l x; simp [codeS, S.toks, leave]; split <;> simp
  | continue_ => intro m l x; simp [codeS, S.toks, leave]; split <;> simp
  | write ln file i is =>
    intro m l x
    have := codeIs_length g.level g.pad is x.ro.length i
    simp only [codeS, S.toks, List.length_cons, List.length_append, List.length_nil]; omega
  | newline p => intro m l x; simp [codeS, S.toks]; omega
  | read ln file y ys =>
    intro m l x
    have := codeVs_length g.level ys y
    simp only [codeS, S.toks, List.length_cons, List.length_append, List.length_nil]; omega
  | skipLine p => intro m l x; simp [codeS, S.toks]; omega
  | call q args =>
    intro m l x
    have h1 := codeA_length g.level args q.parms
    have h2 : (callCode q).length ≤ 2 := by unfold callCode; split <;> simp
    have h3 : (argToks args).length ≤
        (if args = [] then [] else .lparen :: (argToks args ++ [.rparen]) : List Tk).length := by
      split
      · rename_i h; subst h; simp [argToks]
      · simp; omega
    simp only [codeS, S.toks, List.length_cons, List.length_append]
    omega
  | one s ih => intro m l x; have := ih m l x; simpa [codeS, S.toks] using this
  | cons s ls ih ih' =>
    intro m l x
    have := ih m l x
    have := ih' (m - (s.toks.length + 1)) (l + s.nlab) { x with ro := x.ro ++ s.ro g.pad }
    simp [codeS, S.toks]; omega
  | last c cs s semi ih =>
    intro m l x
    have := codeK_length (l + 2) (l + 1) cs c
    have := ih (m - ((constToks c cs).length + 1)) (l + 2) x
    simp [codeS, S.toks]; split <;> simp <;> omega
  | more c cs s css ih ih' =>
    intro m l x
    have := codeK_length (l + 2) (l + 1) cs c
    have := ih (m - ((constToks c cs).length + 1)) (l + 2) x
    have := ih' (m - ((constToks c cs).length + s.toks.length + 2)) (l + 2 + s.nlab) { x with this := l + 1, ro := x.ro ++ s.ro g.pad }
    simp [codeS, S.toks]; omega
  | otherwise s semi ih =>
    intro m l x
    have := ih (m - 1) (l + 1) x
    simp [codeS, S.toks]; split <;> simp <;> omega

theorem byteSize_le (i : OpType) : byteSize i ≤ 4 := by
  unfold byteSize byteSize.operandBytes16
  (repeat' split) <;> omega

theorem sum_byteSize_le (l : List OpType) : (l.map byteSize).sum ≤ 4 * l.length := by
  induction l with
  | nil => simp
  | cons i l ih => have := byteSize_le i; simp; omega

theorem pointwise_mem {α β : Type} {R : α → β → Prop} {a : List α} {b : List β}
    (h : Pointwise R a b) {y : β} (hy : y ∈ b) : ∃ x ∈ a, R x y := by
  obtain ⟨n, hn, hny⟩ := List.mem_iff_getElem.mp hy
  have hna : n < a.length := by rw [h.1]; exact hn
  refine ⟨a[n], List.getElem_mem hna, h.2 n _ _ (List.getElem?_eq_getElem hna) ?_⟩
  rw [List.getElem?_eq_getElem hn, hny]

theorem pointwise_dropLast {α β : Type} {R : α → β → Prop} {a : List α} {b : List β}
    (h : Pointwise R a b) : Pointwise R a.dropLast b.dropLast := by
  refine ⟨by simp [h.1], fun j x y hx hy => ?_⟩
  rw [List.getElem?_dropLast] at hx hy
  split at hx
  · split at hy
    · exact h.2 j x y hx hy
    · exact absurd hy (by simp)
  · exact absurd hx (by simp)

theorem resolved_wellFormed {p : List OpType} {i i' : OpType} (h : Resolved p [] i i')
    (hw : WellFormed i) : WellFormed i' := by
  have hk : ∀ o : Op, operandKind o = .program → hasArg16 o.toByte = true := by
    intro o; cases o <;> decide
  cases h with
  | other _ _ => exact hw
  | label ho hp _ =>
    refine ⟨hw.known, hw.no8, fun h => ?_⟩
    have := hk _ hp
    rw [ho] at this
    rw [this] at h; cases h
  | extern _ _ hi => obtain ⟨⟨s, h, _⟩, _⟩ := hi; exact absurd h (by simp)

theorem moved_zero {i : OpType} (hw : WellFormed i) : movedI i 0 0 = i := by
  obtain ⟨o, ho⟩ := hw.known
  rw [movedI, ← ho, Op.ofByte_toByte]
  simp only [moved]
  cases i
  split <;> simp

/-- The finished program of a correct object goes through the linker unchanged. -/
theorem link_one {p q : List OpType} (hw : ∀ i ∈ p, WellFormed i) (he : EndsOnce p)
    (hend : p.getLast?.map (·.op) = some Op.end_.toByte)
    (hu : ∀ i ∈ p, ∀ o : Op, o.toByte = i.op → ¬ UnsignedJump o) (hp : p.length < 2 ^ 30)
    (hq : Pointwise (Resolved p []) (realOps p) q)
    (name : List Byte) {files : List (List Byte)} (hf : files ≠ []) (ro : List Byte) (f : ObjFile)
    (hfp : f.prog = encode q) {e : Nat} (hfe : f.entry = some e) :
    ∃ o, Link.link [linkInput name files ro f] = .ok (some o) ∧ o.prog = encode q ∧
      o.entry = BitVec.ofNat 32 e ∧ o.rodata = ro := by
  have hsub : ∀ i ∈ realOps p, i ∈ p := fun i hi => (List.mem_filter.mp hi).1
  have hqw : ∀ i ∈ q, WellFormed i := fun i hi => by
    obtain ⟨x, hx, h⟩ := pointwise_mem hq hi
    exact resolved_wellFormed h (hw x (hsub x hx))
  obtain ⟨h1, h2⟩ := realOps_last he hend
  have ok : Part.OK ⟨linkInput name files ro f, q, []⟩ := by
    refine ⟨by rw [List.append_nil]; exact hfp, hqw, fun i hi o ho => ?_, fun i hi => ?_, ?_, hf, ?_, ?_, ?_⟩
    · obtain ⟨x, hx, h⟩ := pointwise_mem hq hi
      exact hu x (hsub x hx) o (by rw [ho, (resolved_op h).1])
    · obtain ⟨x, hx, h⟩ := pointwise_mem (pointwise_dropLast hq) hi
      rw [(resolved_op h).1]
      exact h1 x hx
    · rw [List.getLast?_eq_getElem?] at h2 ⊢
      rw [← hq.1]
      cases ha : (realOps p)[(realOps p).length - 1]? with
      | none => rw [ha] at h2; simp at h2
      | some x =>
        have hlt : (realOps p).length - 1 < q.length := by
          rw [← hq.1]; exact (List.getElem?_eq_some_iff.mp ha).1
        rw [ha] at h2
        have := hq.2 _ x _ ha (List.getElem?_eq_getElem hlt)
        rw [List.getElem?_eq_getElem hlt]
        simp only [Option.map_some, (resolved_op this).1]
        exact h2
    · intro r hr; exact absurd hr (by simp [linkInput])
    · intro r hr; exact absurd hr (by simp [linkInput])
    · intro r hr; exact absurd hr (by simp [linkInput])
  have hlen : (encode q).length < 2 ^ 32 := by
    rw [encode_length]
    have := sum_byteSize_le q
    have := List.length_filter_le (fun i => !isMark i) p
    have := hq.1
    unfold realOps at this
    omega
  obtain ⟨o, ho, hl⟩ := (C36_link_partial [⟨linkInput name files ro f, q, []⟩] (by simpa using ok) (by simp)
    (by simpa using hlen) (by simp [linkInput])).1 ⟨by simp [OneProgram, linkInput],
      by intro s hs; simp [allSyms, places, placesFrom, linkInput] at hs,
      by intro r hr; simp [allRels, places, placesFrom, linkInput] at hr⟩
  refine ⟨o, ho, ?_, ?_, ?_⟩
  · rw [hl.code]
    have : allRels (places [⟨linkInput name files ro f, q, []⟩]) = [] := by
      simp [allRels, places, placesFrom, linkInput]
    rw [this]
    have : allInsns (places [⟨linkInput name files ro f, q, []⟩]) = q := by
      simp only [allInsns, places, placesFrom, List.flatMap_cons, List.flatMap_nil, List.append_nil]
      conv => rhs; rw [← List.map_id q]
      exact List.map_congr_left fun i hi => moved_zero (hqw i hi)
    rw [this]; rfl
  · have := (hl.start _ (by simp [places, placesFrom]; rfl) rfl).1
    rw [this]
    apply BitVec.eq_of_toNat_eq
    simp [linkInput, hfe]
  · rw [hl.constants]; simp [linkInput]

theorem jumpOver_length (lev l : Nat) (ps : Dcl .procs) : (jumpOver lev l ps).length ≤ 1 := by
  cases ps with
  | nil => simp [jumpOver]
  | cons => simp only [jumpOver]; split <;> simp

theorem space_length (n : Int) : (space n).length ≤ 1 := by unfold space; split <;> simp

/-- The number of instructions is linear in the number of tokens. -/
theorem codeD_length (line : Nat → Byte × Word) (pad : Byte) {k : DK} (d : Dcl k) : ∀ {lev l : Nat} {ro : List Byte} {r : Nat}
    {outer own : Scope}, d.Ok lev l outer own → (d.code line pad lev l ro r).length ≤ 20 * d.toks.length := by
  induction d with
  | blk ks gs ps body st ih =>
    intro lev l ro r outer own h
    simp only [Dcl.Ok] at h
    have h1 := ih (ro := ro) (r := body.length + 2 + r) h.2
    have h3 : body.length = st.toks.length := h.1.body.1
    have h4 := jumpOver_length lev (l + 1) ps
    have h5 := codeS_length ⟨lev, line, pad⟩ st (st.toks.length + 1 + r) (l + 1 + ps.labels) (top0 (ro ++ ps.ro pad))
    have h6 := space_length (roomOf lev gs)
    have h7 := space_length (-(roomOf lev gs : Int))
    have h8 : (if lev = 0 then initial else []).length ≤ 4 := by split <;> simp [initial]
    simp only [Dcl.code, Dcl.toks, codeB, List.length_append, List.length_cons, List.length_nil]
    omega
  | nil => intros; exact Nat.zero_le _
  | cons name parms b rest ihb ihr =>
    intro lev l ro r outer own h
    simp only [Dcl.Ok] at h
    have h1 := ihb (ro := ro) (r := 1 + rest.toks.length + r) h.2.2.1
    have h2 := ihr (ro := ro ++ b.ro pad) (r := r) h.2.2.2
    simp only [Dcl.code, Dcl.toks, List.length_append, List.length_cons]
    omega

theorem codeP_length {line : Nat → Byte × Word} {pad : Byte} {P : Source} {b : S .list} (ok : P.Ok b)
    (hl : P.procs.toks.length + b.toks.length ≤ 65534) : (codeP line pad P b).length < 2 ^ 30 := by
  have h := ok.block
  simp only [Dcl.Ok] at h
  have h1 := codeD_length line pad P.procs (ro := []) (r := P.body.length + 2 + 1) h.2
  have h4 := jumpOver_length 0 (0 + 1) P.procs
  have h5 := codeS_length ⟨0, line, pad⟩ b (b.toks.length + 1 + 1) (0 + 1 + P.procs.labels) (top0 ([] ++ P.procs.ro pad))
  have h6 := space_length (roomOf 0 P.groups)
  have h7 := space_length (-(roomOf 0 P.groups : Int))
  simp only [codeP, Source.block, Dcl.code, codeB, List.length_append, List.length_cons, List.length_nil, if_true]
  have h8 : initial.length = 4 := rfl
  omega

/-- The tools make a program out of a correct source; it behaves as the generated code does. -/
theorem build_ok {P : Source} {b : S .list} (line : Nat → Byte × Word) (pad : Byte) (ok : P.Ok b)
    (hs : P.size ≤ 32768) (hl : P.procs.toks.length + b.toks.length ≤ 65534) (hd : b.need 0 ≤ 16384)
    (name : List Byte) {files : List (List Byte)} (hf : files ≠ []) :
    ∃ N o, (∀ n, N ≤ n → build line pad name files n P.toks = .ok (some o)) ∧
      o.entry.truncate 16 = place (codeP line pad P b) (startP line pad P) ∧
      o.rodata = P.procs.ro pad ++ b.ro pad ∧
      ∀ lib : Lib, lib.NoPc → ∀ maxpc : Word, o.prog.length ≤ maxpc.toNat →
      ∀ c, (∀ c', PSteps lib (place (codeP line pad P b)) (codeP line pad P b) c c' →
        AtEnd (codeP line pad P b) c' →
        ∃ n, runFor lib o.prog maxpc n { c.2 with pc := place (codeP line pad P b) c.1 } =
          .ok (eEXIT, { c'.2 with pc := place (codeP line pad P b) c'.1 })) ∧
        ((∀ n, Long lib (place (codeP line pad P b)) (codeP line pad P b) n c) → ∀ n, ∃ t,
          runFor lib o.prog maxpc n { c.2 with pc := place (codeP line pad P b) c.1 } = .ok (eNOERROR, t)) ∧
        (∀ c', PSteps lib (place (codeP line pad P b)) (codeP line pad P b) c c' →
          ∃ n, runFor lib o.prog maxpc n { c.2 with pc := place (codeP line pad P b) c.1 } =
            .ok (eNOERROR, { c'.2 with pc := place (codeP line pad P b) c'.1 })) := by
  obtain ⟨N, hN⟩ := program_ok line pad ok hs hl hd
  have hlen := codeP_length (line := line) (pad := pad) ok hl
  have hlab := startP_label (line := line) (pad := pad) ok hl
  generalize hR : P.procs.ro pad ++ b.ro pad = R at *
  generalize hp : codeP line pad P b = p at *
  have hw : ∀ i ∈ p, WellFormed i := hp ▸ codeP_wellFormed ok
  have he : EndsOnce p := hp ▸ codeP_once ok
  have hend : p.getLast?.map (·.op) = some Op.end_.toByte := hp ▸ codeP_last
  have hu : ∀ i ∈ p, ∀ o : Op, o.toByte = i.op → ¬ UnsignedJump o := hp ▸ codeP_signed ok
  have hlb : LabelsOk p [] := hp ▸ codeP_labels ok hl
  let f : ObjFile := Object.file ⟨p, 0, 1, R⟩
  have hentry : ∀ e, f.entry = some e → ∃ (L : Word) (k : Nat), L.toNat = e ∧ LabelAt p L k := by
    intro e h
    exact ⟨1#16, _, by injection h, hlab⟩
  obtain ⟨f', q, _, hfin, hfp, hq, _, _, _, _, _, hent⟩ := C34_finalize_partial f p [] []
    (by simp [f, Object.file]) hw he hend hu hlb (by intro s hs; cases hs) hentry rfl
    ⟨List.Pairwise.nil, by simp⟩
  have hfe := hent 1#16 _ rfl hlab
  obtain ⟨o, ho, hop, hoe, hor⟩ := link_one hw he hend hu hlen hq name hf R f' hfp hfe
  refine ⟨N, o, fun n hn => ?_, ?_, hor, ?_⟩
  · unfold build
    rw [hN n hn]
    simp only [Res.ok_bind, ne_eq, not_true_eq_false, if_false]
    rw [show finalize (Object.file ⟨p, 0, 1, R⟩) = _ from hfin]
    exact ho
  · rw [hoe, place]
    apply BitVec.eq_of_toNat_eq
    simp [BitVec.toNat_ofNat]
  · intro lib hlib maxpc hmax c
    obtain ⟨f2, hfin2, _, hrun⟩ := C34_behaviour_partial lib hlib f p [] [] (by simp [f, Object.file]) hw he
      hend hu hlb (by intro s hs; cases hs) hentry rfl ⟨List.Pairwise.nil, by simp⟩
    rw [hfin] at hfin2
    injection hfin2 with h; injection h with h; subst h
    refine ⟨fun c' hst hat => ?_, fun hL n => ?_, fun c' hst => ?_⟩
    · have := (hrun [] maxpc (by rw [hfp, ← hop]; exact hmax) c c' hst).2 hat
      rw [List.append_nil, hfp, ← hop] at this
      exact this
    · have := long_machine hlib hq [] maxpc (by rw [← hop]; exact hmax) _ n c (hL _) (Nat.le_refl _)
      rw [List.append_nil, ← hop] at this
      exact this
    · have := (hrun [] maxpc (by rw [hfp, ← hop]; exact hmax) c c' hst).1
      rw [List.append_nil, hfp, ← hop] at this
      exact this

end Pas.Src

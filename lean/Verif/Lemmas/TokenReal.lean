import Verif.Lemmas.Token

/-! Lemmas about the tokenizer: real numbers. -/

namespace Pas.Tok

open Pas.Spec (Coming Digit Letter Blank decimal Scans Scale RealNumber)

theorem scale_zero {sc : List Byte} {e : Int} (h : Scale sc e) : 0#8 ∉ sc := by
  cases h with
  | none => simp
  | plain l ds hl hne hd => simp only [List.mem_cons, not_or]; exact ⟨by rintro rfl; simp at hl, digit_ne_zero hd⟩
  | plus l ds hl hne hd =>
    simp only [List.mem_cons, not_or]; exact ⟨by rintro rfl; simp at hl, by decide, digit_ne_zero hd⟩
  | minus l ds hl hne hd =>
    simp only [List.mem_cons, not_or]; exact ⟨by rintro rfl; simp at hl, by decide, digit_ne_zero hd⟩

theorem not_digit {c : Byte} (h : ¬ Digit c) : isDigit c = false := by
  cases hq : isDigit c
  · rfl
  · exact absurd ((isDigit_iff c).1 hq) h

theorem finish_real {s : State} {base w : List Byte} (hs : s.stack = base ++ w) (h0 : s.start = base.length)
    (hz : 0#8 ∉ w) (hr : base.length + w.length < 65536) :
    (s.push 0#8 >>= fun s => .ok s.scanReal.pop) = .ok { s with stack := base, real := w } := by
  rw [push_ok _ (by rw [hs]; simp; omega)]
  have ht : (w ++ [0#8]).takeWhile (fun x => !decide (x = 0#8)) = w := by
    rw [List.takeWhile_append_of_pos (by intro a ha; simp; rintro rfl; exact hz ha)]
    simp
  simp [State.scanReal, State.pop, State.string, hs, h0, ht]

theorem exponentDigits_ok {s : State} {base w ds t : List Byte} {c : Byte} {n : Nat} (hs : s.stack = base ++ w)
    (h0 : s.start = base.length) (hz : 0#8 ∉ w) (hd : ∀ d ∈ ds, Digit d) (hne : ds ≠ []) (hc : ¬ Digit c)
    (h : Coming s.inp (ds ++ c :: t)) (hr : base.length + w.length + ds.length < 65536) (hn : ds.length < n) :
    ∃ i, exponentDigits n s = .ok { s with inp := i, stack := base, real := w ++ ds } ∧ Coming i (c :: t) := by
  obtain ⟨i, hi, hci⟩ := takeWhile_ok (p := isDigit) (n := n) (s := s) h
    (fun x hx => (isDigit_iff x).2 (hd x hx)) (not_digit hc) (by rw [hs]; simp; omega) hn
  refine ⟨i, ?_, hci⟩
  have hfirst : isDigit s.inp.inChar = true := by
    cases ds with
    | nil => exact absurd rfl hne
    | cons d ds => rw [coming_char h]; exact (isDigit_iff d).2 (hd d (by simp))
  unfold exponentDigits
  rw [if_pos hfirst, hi]
  simp only [Res.ok_bind]
  have := finish_real (s := { s with inp := i, stack := s.stack ++ ds }) (base := base) (w := w ++ ds)
    (by simp [hs]) h0 (by simp only [List.mem_append, not_or]; exact ⟨hz, digit_ne_zero hd⟩) (by simp; omega)
  simpa using this

/-- The part of a number behind its digits, with a letter in front. -/
theorem exponent_ok {s : State} {base w sc t : List Byte} {e : Int} {c : Byte} {n : Nat} (hs : s.stack = base ++ w)
    (h0 : s.start = base.length) (hz : 0#8 ∉ w) (hsc : Scale sc e) (hne : sc ≠ []) (hc : ¬ Digit c)
    (h : Coming s.inp (sc ++ c :: t)) (hr : base.length + w.length + sc.length + 1 < 65536) (hn : sc.length ≤ n) :
    ∃ i sc', exponent n s = .ok { s with inp := i, token := 5, stack := base, real := w ++ sc' } ∧
      Coming i (c :: t) ∧ Scale sc' e ∧ sc' ≠ [] := by
  have main : ∀ (l : Byte) (ds : List Byte) (g : Byte) (s' : State), (l = 101#8 ∨ l = 69#8) → (g = 43#8 ∨ g = 45#8) →
      ds ≠ [] → (∀ d ∈ ds, Digit d) → sign { s with
        inp := s.inp.get
        token := 5
        stack := s.stack ++ [l] } = .ok s' → s'.stack = base ++ (w ++ [l, g]) → s'.start = s.start →
      Coming s'.inp (ds ++ c :: t) → s.inp.inChar = l → ds.length < sc.length →
      ∃ i, exponent n s = .ok { s' with inp := i, stack := base, real := (w ++ [l, g]) ++ ds } ∧ Coming i (c :: t) := by
    intro l ds g s' hl hg hne' hd hsign hst hst0 hcom hin hlen
    obtain ⟨i, hi, hci⟩ := exponentDigits_ok (s := s') (base := base) (w := w ++ [l, g]) (n := n) hst
      (hst0.trans h0) (by
        simp only [List.mem_append, List.mem_cons, List.not_mem_nil, or_false, not_or]
        exact ⟨hz, by rintro rfl; simp at hl, by rintro rfl; simp at hg⟩) hd hne' hc hcom (by simp; omega) (by omega)
    refine ⟨i, ?_, hci⟩
    unfold exponent
    simp only [hin]
    rw [push_ok _ (by rw [hs]; simp; omega)]
    simp only [Res.ok_bind, State.get]
    rw [hsign]
    simp only [Res.ok_bind]
    exact hi
  cases hsc with
  | none => exact absurd rfl hne
  | plain l ds hl hne' hd =>
    have hg : Coming s.inp.get (ds ++ c :: t) := by cases ds <;> exact coming_get h
    have hf : s.inp.get.inChar ≠ 45#8 ∧ s.inp.get.inChar ≠ 43#8 := by
      cases ds with
      | nil => exact absurd rfl hne'
      | cons d ds =>
        rw [coming_char hg]
        have := hd d (by simp)
        refine ⟨?_, ?_⟩ <;> rintro rfl <;> simp [Digit] at this
    obtain ⟨i, hi, hci⟩ := main l ds 43#8 { s with
        inp := s.inp.get
        token := 5
        stack := s.stack ++ [l] ++ [43#8] } hl (.inl rfl) hne' hd
      (by unfold sign; rw [if_neg (by simp [hf]), push_ok _ (by simp [hs]; simp at hr; omega)]) (by simp [hs]) rfl hg
      (coming_char h) (by simp)
    exact ⟨i, l :: 43#8 :: ds, by rw [hi]; simp, hci, .plus l ds hl hne' hd, by simp⟩
  | plus l ds hl hne' hd =>
    have hg : Coming s.inp.get (43#8 :: ds ++ c :: t) := coming_get h
    have hg2 : Coming s.inp.get.get (ds ++ c :: t) := by cases ds <;> exact coming_get hg
    obtain ⟨i, hi, hci⟩ := main l ds 43#8 { s with
        inp := s.inp.get.get
        token := 5
        stack := s.stack ++ [l] ++ [43#8] } hl (.inl rfl) hne' hd
      (by
        unfold sign
        rw [if_pos (by simp [coming_char hg]), push_ok _ (by simp [hs]; simp at hr; omega)]
        simp [State.get, coming_char hg]) (by simp [hs]) rfl hg2 (coming_char h) (by simp only [List.length_cons]; omega)
    exact ⟨i, l :: 43#8 :: ds, by rw [hi]; simp, hci, .plus l ds hl hne' hd, by simp⟩
  | minus l ds hl hne' hd =>
    have hg : Coming s.inp.get (45#8 :: ds ++ c :: t) := coming_get h
    have hg2 : Coming s.inp.get.get (ds ++ c :: t) := by cases ds <;> exact coming_get hg
    obtain ⟨i, hi, hci⟩ := main l ds 45#8 { s with
        inp := s.inp.get.get
        token := 5
        stack := s.stack ++ [l] ++ [45#8] } hl (.inr rfl) hne' hd
      (by
        unfold sign
        rw [if_pos (by simp [coming_char hg]), push_ok _ (by simp [hs]; simp at hr; omega)]
        simp [State.get, coming_char hg]) (by simp [hs]) rfl hg2 (coming_char h) (by simp only [List.length_cons]; omega)
    exact ⟨i, l :: 45#8 :: ds, by rw [hi]; simp, hci, .minus l ds hl hne' hd, by simp⟩

theorem scale_first {sc : List Byte} {e : Int} (h : Scale sc e) (hne : sc ≠ []) :
    ∃ l r, sc = l :: r ∧ (l = 101#8 ∨ l = 69#8) := by
  cases h with
  | none => exact absurd rfl hne
  | plain l ds hl => exact ⟨_, _, rfl, hl⟩
  | plus l ds hl => exact ⟨_, _, rfl, hl⟩
  | minus l ds hl => exact ⟨_, _, rfl, hl⟩

/-- From the decimal point on. -/
theorem realNumber_ok {s : State} {base w fs sc t : List Byte} {e : Int} {c : Byte} {n : Nat}
    (hs : s.stack = base ++ w) (h0 : s.start = base.length) (hz : 0#8 ∉ w) (hf : ∀ d ∈ fs, Digit d)
    (hsc : Scale sc e) (hc : ¬ Digit c) (he : sc = [] → c ≠ 101#8 ∧ c ≠ 69#8)
    (h : Coming s.inp (fs ++ (sc ++ c :: t)))
    (hr : base.length + w.length + fs.length + sc.length + 2 < 65536) (hn : fs.length + sc.length < n) :
    ∃ i sc', realNumber n s = .ok { s with inp := i, token := 5, stack := base, real := w ++ 46#8 :: (fs ++ sc') } ∧
      Coming i (c :: t) ∧ Scale sc' e := by
  have hnext : ∃ a r, sc ++ c :: t = a :: r ∧ isDigit a = false := by
    by_cases hsn : sc = []
    · exact ⟨c, t, by simp [hsn], not_digit hc⟩
    · obtain ⟨l, r, rfl, hl⟩ := scale_first hsc hsn
      exact ⟨l, _, rfl, by rcases hl with rfl | rfl <;> rfl⟩
  obtain ⟨a, r, har, had⟩ := hnext
  obtain ⟨i, hi, hci⟩ := takeWhile_ok (p := isDigit) (n := n) (s := { s with
      token := 5
      stack := s.stack ++ [46#8] }) (c := a) (t := r) (by rw [← har]; exact h)
    (fun x hx => (isDigit_iff x).2 (hf x hx)) had (by simp [hs]; omega) (by omega)
  have hz' : 0#8 ∉ w ++ 46#8 :: fs := by
    simp only [List.mem_append, List.mem_cons, not_or]
    exact ⟨hz, by decide, digit_ne_zero hf⟩
  by_cases hsn : sc = []
  · subst hsn
    simp only [List.nil_append, List.cons.injEq] at har
    obtain ⟨rfl, rfl⟩ := har
    refine ⟨i, [], ?_, hci, hsc⟩
    unfold realNumber
    simp only []
    rw [push_ok _ (by simp [hs]; omega)]
    simp only [Res.ok_bind]
    rw [hi]
    simp only [Res.ok_bind]
    unfold realTail
    rw [if_neg (by simp only [coming_char hci]; intro x; exact x.elim (he rfl).1 (he rfl).2)]
    have := finish_real (s := { s with
        inp := i
        token := 5
        stack := s.stack ++ [46#8] ++ fs }) (base := base) (w := w ++ 46#8 :: fs) (by simp [hs]) h0 hz' (by simp; omega)
    simpa using this
  · obtain ⟨l, x, hx, hl⟩ := scale_first hsc hsn
    rw [← har] at hci
    obtain ⟨j, sc', hj, hcj, hsc', hne'⟩ := exponent_ok (n := n) (s := { s with
        inp := i
        token := 5
        stack := s.stack ++ [46#8] ++ fs }) (base := base) (w := w ++ 46#8 :: fs) (by simp [hs]) h0 hz' hsc hsn hc hci
      (by simp; omega) (by omega)
    refine ⟨j, sc', ?_, hcj, hsc'⟩
    unfold realNumber
    simp only []
    rw [push_ok _ (by simp [hs]; omega)]
    simp only [Res.ok_bind]
    rw [hi]
    simp only [Res.ok_bind]
    unfold realTail
    subst hx
    rw [if_pos (by simp only [coming_char hci]; exact hl), hj]
    simp [State.pop, h0]

theorem number_real_ok {s : State} {ds w sc t : List Byte} {c : Byte} {n : Nat} {e : Int}
    (h : Coming s.inp (ds ++ (w ++ (sc ++ c :: t)))) (hd : ∀ d ∈ ds, Digit d) (hne : ds ≠ []) (hsc : Scale sc e)
    (hw : (w = [] ∧ sc ≠ []) ∨ ∃ fs, w = 46#8 :: fs ∧ (∀ d ∈ fs, Digit d) ∧
      (sc = [] → c ≠ 101#8 ∧ c ≠ 69#8) ∧ (fs = [] → sc = [] → c ≠ 46#8))
    (hc : ¬ Digit c) (hs : s.start = s.stack.length)
    (hr : s.stack.length + ds.length + w.length + sc.length + 2 < 65536) (hn : ds.length + w.length + sc.length < n) :
    ∃ i sc', number n s = .ok { s with inp := i, token := 5, real := ds ++ (w ++ sc') } ∧
      Coming i (c :: t) ∧ Scale sc' e ∧ (sc ≠ [] → w = [] → sc' ≠ []) := by
  cases ds with
  | nil => exact absurd rfl hne
  | cons d ds =>
    have hp : ∀ x ∈ ds, isDigit x = true := fun x hx => (isDigit_iff x).2 (hd x (by simp [hx]))
    have hg : Coming s.inp.get (ds ++ (w ++ (sc ++ c :: t))) := by
      rw [List.cons_append] at h
      generalize hy : ds ++ (w ++ (sc ++ c :: t)) = y at h
      cases y with
      | nil => simp at hy
      | cons b y => exact coming_get h
    simp only [List.length_cons] at hr hn
    rcases hw with ⟨rfl, hsn⟩ | ⟨fs, rfl, hf, he, hdot⟩
    · obtain ⟨l, x, hx, hl⟩ := scale_first hsc hsn
      obtain ⟨i, hi, hci⟩ := takeWhile_ok (p := isDigit) (n := n) (s := { s with
          inp := s.inp.get
          stack := s.stack ++ [d]
          token := 2 }) (c := l) (t := x ++ c :: t) (by simpa [hx] using hg) hp
        (by rcases hl with rfl | rfl <;> rfl) (by simp; omega) (by omega)
      have hci' : Coming i (sc ++ c :: t) := by rw [hx]; exact hci
      obtain ⟨j, sc', hj, hcj, hsc', hne'⟩ := exponent_ok (n := n) (s := { s with
          inp := i
          stack := s.stack ++ [d] ++ ds
          token := 2 }) (base := s.stack) (w := d :: ds) (by simp) hs (digit_ne_zero hd) hsc hsn hc hci'
        (by simp; omega) (by omega)
      refine ⟨j, sc', ?_, hcj, hsc', fun _ _ => hne'⟩
      unfold number
      simp only [coming_char h]
      rw [push_ok _ (by simp; omega)]
      simp only [Res.ok_bind, State.get]
      rw [hi]
      simp only [Res.ok_bind]
      rw [if_pos (by simp only [coming_char hci]; exact hl), hj]
      simp
    · obtain ⟨i, hi, hci⟩ := takeWhile_ok (p := isDigit) (n := n) (s := { s with
          inp := s.inp.get
          stack := s.stack ++ [d]
          token := 2 }) (c := 46#8) (t := fs ++ (sc ++ c :: t)) (by simpa using hg) hp rfl (by simp; omega) (by omega)
      obtain ⟨b, y, hby, hb⟩ : ∃ b y, fs ++ (sc ++ c :: t) = b :: y ∧ b ≠ 46#8 := by
        cases fs with
        | cons b fs => exact ⟨b, _, rfl, by rintro rfl; have := hf _ (by simp : 46#8 ∈ 46#8 :: fs); simp [Digit] at this⟩
        | nil =>
          by_cases hsn : sc = []
          · exact ⟨c, t, by simp [hsn], hdot rfl hsn⟩
          · obtain ⟨l, x, hx, hl⟩ := scale_first hsc hsn
            exact ⟨l, x ++ c :: t, by simp [hx], by rcases hl with rfl | rfl <;> decide⟩
      rw [hby] at hci
      have hpk := coming_peek hci
      have hgp : Coming i.peek.get (fs ++ (sc ++ c :: t)) := by rw [hby]; exact coming_get hpk
      simp only [List.length_cons] at hr hn
      obtain ⟨j, sc', hj, hcj, hsc'⟩ := realNumber_ok (n := n) (s := { s with
          inp := i.peek.get
          stack := s.stack ++ [d] ++ ds
          token := 2 }) (base := s.stack) (w := d :: ds) (by simp) hs (digit_ne_zero hd) hf hsc hc he hgp
        (by simp; omega) (by omega)
      refine ⟨j, sc', ?_, hcj, hsc', by simp⟩
      unfold number
      simp only [coming_char h]
      rw [push_ok _ (by simp; omega)]
      simp only [Res.ok_bind, State.get]
      rw [hi]
      simp only [Res.ok_bind, coming_char hci, coming_char hpk, hb, if_false, ne_eq, not_true,
        show ((46#8 : Byte) = 101#8 ∨ (46#8 : Byte) = 69#8) = False by simp]
      rw [hj]
      simp

theorem digit_start {b : Byte} (hbd : Digit b) : (isAlpha b || b == 95#8) = false ∧ ¬ Blank b := by
  constructor
  · rw [← Bool.not_eq_true, Bool.or_eq_true, isAlpha_iff]
    rintro (h | h)
    · simp only [Letter, Digit] at h hbd; omega
    · have : b = 95#8 := by simpa using h
      subst this; simp [Digit] at hbd
  · intro hbl
    simp only [Blank, List.mem_cons, List.not_mem_nil, or_false] at hbl
    rcases hbl with rfl | rfl | rfl | rfl | rfl | rfl <;> simp [Digit] at hbd

/-- A real number is read to its end. -/
theorem real_scan {tab : List Pas.Names.Entry} {f : Nat} {inWith : Bool} {s : State} {w t : List Byte} {c : Byte}
    {m : Nat} {e : Int} (h : Coming s.inp (w ++ c :: t)) (hw : RealNumber w m e) (hc : ¬ Digit c)
    (he : c ≠ 101#8 ∧ c ≠ 69#8) (hdot : c ≠ 46#8) (hr : s.stack.length + w.length + 2 < 65536) :
    ∃ i w', Coming i (c :: t) ∧ RealNumber w' m e ∧ Scans tab f inWith s { s with
      inp := i
      token := 5
      start := s.stack.length
      sym := none
      real := w' } := by
  cases hw with
  | whole ds sc e hd hne hsc hsn =>
    obtain ⟨i, sc', hi, hci, hsc', hne'⟩ := number_real_ok (n := (ds ++ sc).length + 1) (s := { s with
        start := s.stack.length
        sym := none }) (w := []) (sc := sc) (by simpa using h) hd hne hsc (.inl ⟨rfl, hsn⟩) hc rfl
      (by simp at hr ⊢; omega) (by simp)
    refine ⟨i, ds ++ sc', hci, .whole ds sc' e hd hne hsc' (hne' hsn rfl), scans_of (n := (ds ++ sc).length + 2) ?_⟩
    cases ds with
    | nil => exact absurd rfl hne
    | cons b rest =>
      have hbd := hd b (by simp)
      have hst := digit_start hbd
      rw [getToken_start _ _ _ _ _ (coming_char h) hst.2, dispatch, if_neg (by simp [hst.1]),
        if_pos ((isDigit_iff b).2 hbd)]
      simpa using hi
  | point ds fs sc e hd hf hany hsc =>
    cases ds with
    | cons b rest =>
      obtain ⟨i, sc', hi, hci, hsc', -⟩ := number_real_ok (n := (b :: rest ++ 46#8 :: (fs ++ sc)).length + 1) (s := { s with
          start := s.stack.length
          sym := none }) (w := 46#8 :: fs) (sc := sc) (by simpa using h) hd (by simp) hsc
        (.inr ⟨fs, rfl, hf, fun _ => he, fun _ _ => hdot⟩) hc rfl (by simp at hr ⊢; omega) (by simp; omega)
      refine ⟨i, b :: rest ++ 46#8 :: (fs ++ sc'), hci, .point _ fs sc' e hd hf hany hsc',
        scans_of (n := (b :: rest ++ 46#8 :: (fs ++ sc)).length + 2) ?_⟩
      have hbd := hd b (by simp)
      have hst := digit_start hbd
      rw [getToken_start _ _ _ _ _ (coming_char h) hst.2, dispatch, if_neg (by simp [hst.1]),
        if_pos ((isDigit_iff b).2 hbd)]
      simpa using hi
    | nil =>
      cases fs with
      | nil => simp at hany
      | cons b rest =>
        have hbd := hf b (by simp)
        have hg : Coming s.inp.get (b :: rest ++ (sc ++ c :: t)) := by
          have := coming_get (i := s.inp) (a := 46#8) (b := b) (cs := rest ++ (sc ++ c :: t)) (by simpa using h)
          simpa using this
        obtain ⟨i, sc', hi, hci, hsc'⟩ := realNumber_ok (n := ((b :: rest) ++ sc).length + 1) (s := { s with
            inp := s.inp.get
            start := s.stack.length
            sym := none }) (base := s.stack) (w := []) (by simp) rfl (by simp) hf hsc hc (fun _ => he) hg
          (by simp at hr ⊢; omega) (by simp; omega)
        refine ⟨i, [] ++ 46#8 :: ((b :: rest) ++ sc'), hci, .point [] _ sc' e hd hf hany hsc',
          scans_of (n := ((b :: rest) ++ sc).length + 2) ?_⟩
        rw [getToken_start _ _ _ _ _ (coming_char h) (by simp [Blank]), dispatch, if_neg (by decide), if_neg (by decide),
          if_neg (by decide), if_neg (by decide), if_pos rfl, if_pos]
        · simpa [State.get] using hi
        · simp only [State.get, coming_char hg]; exact (isDigit_iff b).2 hbd

end Pas.Tok

import Verif.Lemmas.KeepIo
import Verif.Lemmas.IoEffect
import Verif.Model.Library
import Verif.Spec.Machine

/-! The library routines other than `libexec_sysio` leave the files alone. -/
namespace Pas
open Eff KeepIo

theorem io_of {h : VM → Res (Nat × VM)} (H : X (QW' false) h) (s : VM) : KeepIo.KeepR s (h s) :=
  All_of_rel (H 0#16 0#16 s) fun _ _ q => ⟨q.2.2.io rfl⟩

theorem longOps24_io (s : VM) (b : Byte) (w : Word) : KeepIo.KeepR s (LongOps.longOps24 s b w) := by
  have hp : ∀ s, Res.All (fun x => KeepIo.Keep s x.2) (LongOps.pop32 s) := fun s =>
    All_of_rel (Eff.pop32 (fl := false) 0#16 0#16 s) fun _ _ q => ⟨q.2.2.io rfl⟩
  have h1 : ∀ f, KeepIo.KeepR s (LongOps.djump1 s w f) := by
    intro f
    unfold LongOps.djump1
    have h := hp s
    cases e : LongOps.pop32 s with
    | ok p =>
      rw [e] at h
      exact KeepIo.Keep.upd (b := p.2) h _ _ _ _ _ _ _
    | ub => trivial
    | hang => trivial
  have h2 : ∀ f, KeepIo.KeepR s (LongOps.djump2 s w f) := by
    intro f
    unfold LongOps.djump2
    have h := hp s
    cases e : LongOps.pop32 s with
    | ok p =>
      rw [e] at h
      have h' := hp p.2
      simp only [Res.ok_bind]
      cases e' : LongOps.pop32 p.2 with
      | ok q =>
        rw [e'] at h'
        exact (KeepIo.Keep.trans (b := p.2) h h').upd _ _ _ _ _ _ _
      | ub => trivial
      | hang => trivial
    | ub => trivial
    | hang => trivial
  unfold LongOps.longOps24
  split
  all_goals first
    | exact h1 _
    | exact h2 _
    | exact (KeepIo.Keep.refl s).upd _ _ _ _ _ _ _

/-- The library without `libexec_sysio`. -/
def mute (l : Lib) : Lib := { l with sysIo := fun _ _ => .ub }

theorem pexec24_mute (l : Lib) (s : VM) (w : Word) (o : Op) (h : o ≠ .sysio) :
    pexec24 l s (some o) w = pexec24 (mute l) s (some o) w := by
  cases o <;> first | exact absurd rfl h | rfl

theorem execute_mute (l : Lib) (code : List Byte) (maxpc : Word) (s : VM) (o : Op) (hn : Spec.Next code maxpc s o)
    (h : o ≠ .sysio) : execute l code maxpc s = execute (mute l) code maxpc s := by
  unfold execute
  have hf : fetch code s.pc.toNat = .ok o.toByte := by rw [fetch, hn.2]
  rw [hf]
  simp only [Res.ok_bind, Op.ofByte_toByte]
  split
  · rfl
  · split
    · rfl
    · split
      · simp only [pexec24_mute l s _ o h]
      · rfl

end Pas

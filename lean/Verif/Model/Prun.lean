import Verif.Model.Chain
import Verif.Model.FileName
import Verif.Model.SysIo

/-! The command line of the run-time `prun` (`insn16/prun/prun.c`). -/
namespace Pas.Prun
open Pas.Poff Pas.Chain

/-- What `getopt_long` has found (`long_options` and the option string, `prun.c` 77-89 and 166): the option
and its argument.  `other` is an option that is not in the table.  Splitting the command line into options
and names is the work of the C library and not modelled. -/
inductive Opt where
  | alloc (arg : List Byte)
  | stack (arg : List Byte)
  | string (arg : List Byte)
  | new (arg : List Byte)
  | debug
  | help
  | other
deriving DecidableEq

/-- `prunArgs_t`, `prun.c` 60-69, without the file name. -/
structure Args where
  strSize : Int
  stkSize : Int
  hpSize : Int
  debugger : Nat

/-- The default values, `prun.c` 51-54 and 147-152. -/
def defaults : Args := ⟨0, 4096, 0, 0⟩

/-- The value of the digits at the beginning of a text, for `atoi`, `prun.c` 173, 184, 195. -/
def digits (v : Nat) : List Byte → Nat
  | [] => v
  | b :: bs => if SysIo.isdigit b then digits (10 * v + (b.toNat - 48)) bs else v

/-- C `atoi`, used in `prun.c` 173, 184, 195: white space, a sign, digits.  The behaviour for a value that
is no `int` is undefined. -/
def atoi (l : List Byte) : Res Int :=
  let v : Int := match l.dropWhile SysIo.isspace with
    | [] => 0
    | b :: bs =>
      if b = 45#8 then - (digits 0 bs : Int)
      else if b = 43#8 then digits 0 bs
      else digits 0 (b :: bs)
  if v < -2147483648 ∨ 2147483647 < v then .ub else .ok v

/-- `(size + 3) & ~3`, `prun.c` 191 and 202, for a `size` that is not negative: the sum must be an `int`. -/
def up4 (size : Int) : Res Int :=
  if 2147483647 < size + 3 then .ub else .ok ((size + 3) / 4 * 4)

/-- One option, the `switch` in `prun_ParseArgs`, `prun.c` 170-219, with `CONFIG_PASCAL_DEBUGGER`.  `none`:
the usage is shown and the program exits. -/
def option (a : Args) : Opt → Res (Option Args)
  | .new t => do
      let size ← atoi t
      if size < 0 ∨ size ≥ 32768 then .ok none
      else .ok (some { a with hpSize := (size + 1) / 2 * 2 })
  | .stack t => do
      let size ← atoi t
      if size < 1024 then .ok none
      else do
        let n ← up4 size
        .ok (some { a with stkSize := n })
  | .string t => do
      let size ← atoi t
      if size < 0 then .ok none
      else do
        let n ← up4 size
        .ok (some { a with strSize := n })
  | .debug => .ok (some { a with debugger := a.debugger + 1 })
  | .help => .ok none
  | .alloc _ => .ok none
  | .other => .ok none

/-- The loop over the options, `prun.c` 163-222. -/
def options (a : Args) : List Opt → Res (Option Args)
  | [] => .ok (some a)
  | o :: os => do
      match ← option a o with
      | none => .ok none
      | some a => options a os

/-- What `prun` does: it ends with a message, or the machine has been set up and runs the program
(`libexec_RunLoop` or `libexec_DebugLoop`). -/
inductive Started where
  | usage
  | notLoaded
  | runs (s : VM) (prog : List Byte) (maxpc : Word) (debugger : Bool)

/-- `prun_ParseArgs` and `main`, `prun.c` 137-285, up to the loop that runs the program.  `disk` are the
executables of the host and `m0` is the contents of the allocated memory.  The sizes become `uint16_t` in
the call of `libexec_Load` (`libexec_load.c` 57-59).  The result of `extension` is not looked at: if the
name does not fit, an uninitialized name is used. -/
def prun (disk : List Byte → Option (List Byte)) (m0 : Nat → Word) (files : HostFile → Option (List Byte))
    (opts : List Opt) (names : List (List Byte)) : Res Started := do
  match ← options defaults opts with
  | none => .ok .usage
  | some a =>
    match names with
    | [name] =>
      match FileName.extension name [111#8] 41 false with
      | none => .ub
      | some buf =>
        match disk (buf.takeWhile (· ≠ 0#8)) with
        | none => .ok .notLoaded
        | some exe => do
          match ← loadExe exe (BitVec.ofInt 16 a.strSize) (BitVec.ofInt 16 a.stkSize)
              (BitVec.ofInt 16 a.hpSize) with
          | none => .ok .notLoaded
          | some (attr, prog, maxpc) => do
            let s ← startUp attr m0 files
            .ok (.runs s prog maxpc (decide (0 < a.debugger)))
    | _ => .ok .usage

end Pas.Prun

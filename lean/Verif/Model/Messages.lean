import Verif.Model.Printf
/-!
# Model of messages (Source/DKPlatform.c 37-107, 113-266)

DKPrintf, DKLog, DKWarning, DKError, DKFatalError and the message of a failed assertion.  The text is formatted by the model of DKVSPrintf (Model/Printf.lean) into a
mutable string; the C library or a callback gets it as a C string.  A callback is known by a number; it prints its arguments as `vprintf` would.  Output is what
is written, in order.  Not modelled: the second copy for a debugger on Windows (125-133), failures of `vfprintf`, DK_BREAK_ON_ERRORS.
-/
namespace Duck
namespace Messages
open Printf (Arg Libc)

/-- What kind of message -/
inductive Kind where
  | print | log | warning | error | fatal | assertion
  deriving DecidableEq

/-- Where a message goes -/
inductive Sink where
  | stdout | stderr | callback (id : Nat)
  deriving DecidableEq

/-- The static variables, DKPlatform.c 38-53.  A format of NULL is `none`. -/
structure Config where
  printfCallback : Option Nat := none
  logCallback : Option Nat := none
  warningCallback : Option Nat := none
  errorCallback : Option Nat := none
  fatalErrorCallback : Option Nat := none
  logPrefix : Option (List UInt8) := some []
  logSuffix : Option (List UInt8) := some [0x0a]
  warningPrefix : Option (List UInt8) := some "WARNING: ".toUTF8.data.toList
  warningSuffix : Option (List UInt8) := some [0x0a]
  errorPrefix : Option (List UInt8) := some "ERROR: ".toUTF8.data.toList
  errorSuffix : Option (List UInt8) := some [0x0a]
  fatalErrorPrefix : Option (List UInt8) := some "FATAL ERROR: ".toUTF8.data.toList
  fatalErrorSuffix : Option (List UInt8) := some [0x0a]
  abortOnErrors : Bool

/-- The kinds that have a callback of their own, DKPlatform.c 55-78 -/
inductive Channel where
  | print | log | warning | error | fatal
  deriving DecidableEq

/-- The kinds that have a format, DKPlatform.c 80-102 -/
inductive Style where
  | log | warning | error | fatal
  deriving DecidableEq

/-- A call of the program -/
inductive Call where
  | setCallback (c : Channel) (id : Option Nat)
  | setFormat (s : Style) (pre suf : Option (List UInt8))
  | setAbortOnErrors (flag : Bool)
  | message (k : Kind) (format : List UInt8) (args : List Arg)

/-- DKSetPrintfCallback … DKSetFatalErrorCallback, DKPlatform.c 55-78 -/
def setCallback (c : Config) : Channel → Option Nat → Config
  | .print, id => { c with printfCallback := id }
  | .log, id => { c with logCallback := id }
  | .warning, id => { c with warningCallback := id }
  | .error, id => { c with errorCallback := id }
  | .fatal, id => { c with fatalErrorCallback := id }

/-- DKSetLogFormat … DKSetFatalErrorFormat, DKPlatform.c 80-102.  The strings are not copied: the caller keeps them. -/
def setFormat (c : Config) : Style → Option (List UInt8) → Option (List UInt8) → Config
  | .log, p, s => { c with logPrefix := p, logSuffix := s }
  | .warning, p, s => { c with warningPrefix := p, warningSuffix := s }
  | .error, p, s => { c with errorPrefix := p, errorSuffix := s }
  | .fatal, p, s => { c with fatalErrorPrefix := p, fatalErrorSuffix := s }

/-- DKNewMutableString, DKVSPrintf and DKStringGetCStringPtr (e.g. DKPlatform.c 154-159): what a C string function sees of the formatted text -/
def cText (libc : Libc) (format : List UInt8) (args : List Arg) : Option (List UInt8) :=
  (Printf.printf Printf.writeData libc ⟨[], 0⟩ format args).map fun r => r.1.bytes.takeWhile (· != 0)

/-- _DKPrintfInternal, DKPlatform.c 113-143: the callback, or the file -/
def sink (callback : Option Nat) (file : Sink) : Sink :=
  match callback with
  | some id => .callback id
  | none => file

/-- "%s%s%s": a NULL argument is undefined; strings end at their first zero -/
def three (p : Option (List UInt8)) (t : List UInt8) (s : Option (List UInt8)) : Option (List UInt8) :=
  p.bind fun p => s.map fun s => p.takeWhile (· != 0) ++ t ++ s.takeWhile (· != 0)

/-- _DKPrintf, _DKLog, _DKWarning, _DKError, _DKFatalError, _DKFailedAssert, DKPlatform.c 149-266: where, what, and whether the program is aborted afterwards -/
def send (libc : Libc) (c : Config) (k : Kind) (format : List UInt8) (args : List Arg) : Option (Sink × List UInt8 × Bool) :=
  (cText libc format args).bind fun t =>
    match k with
    | .print => some (sink c.printfCallback .stdout, t, false)
    | .log => (three c.logPrefix t c.logSuffix).map fun o => (sink c.logCallback .stdout, o, false)
    | .warning => (three c.warningPrefix t c.warningSuffix).map fun o => (sink c.warningCallback .stdout, o, false)
    | .error => (three c.errorPrefix t c.errorSuffix).map fun o => (sink c.errorCallback .stderr, o, c.abortOnErrors)
    | .fatal => (three c.fatalErrorPrefix t c.fatalErrorSuffix).map fun o => (sink c.fatalErrorCallback .stderr, o, true)
    | .assertion => some (sink c.printfCallback .stdout, t, false)

/-- A program: the output, and whether it was aborted -/
def run (libc : Libc) : Config → List Call → Option (List (Sink × List UInt8) × Bool)
  | _, [] => some ([], false)
  | c, .setCallback k id :: r => run libc (setCallback c k id) r
  | c, .setFormat k p s :: r => run libc (setFormat c k p s) r
  | c, .setAbortOnErrors f :: r => run libc { c with abortOnErrors := f } r
  | c, .message k f a :: r => (send libc c k f a).bind fun o =>
    if o.2.2 then some ([(o.1, o.2.1)], true) else (run libc c r).map fun t => ((o.1, o.2.1) :: t.1, t.2)

end Messages
end Duck

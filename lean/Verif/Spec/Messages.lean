import Verif.Model.Messages
import Verif.Spec.Printf
/-! What C108 talks about: settings are the last ones made, messages have their text between a prefix and a suffix. -/
namespace Duck
namespace Messages
open Printf (Arg Libc Piece Outputs)

/-- The last setting of a history that `f` knows. -/
def last {α : Type} (f : Call → Option α) : List Call → Option α
  | [] => none
  | c :: hist => (last f hist).or (f c)

/-- The callback of a channel after a history: the last one set, none at first. -/
def callbackOf (ch : Channel) (hist : List Call) : Option Nat :=
  (last (fun c => match c with
    | .setCallback ch' id => if ch' = ch then some id else none
    | _ => none) hist).getD none

/-- Prefix and suffix at first. -/
def firstFormat : Style → List UInt8 × List UInt8
  | .log => ([], [0x0a])
  | .warning => ("WARNING: ".toUTF8.data.toList, [0x0a])
  | .error => ("ERROR: ".toUTF8.data.toList, [0x0a])
  | .fatal => ("FATAL ERROR: ".toUTF8.data.toList, [0x0a])

/-- Prefix and suffix after a history: the last ones set. -/
def formatOf (st : Style) (hist : List Call) : List UInt8 × List UInt8 :=
  (last (fun c => match c with
    | .setFormat st' (some p) (some s) => if st' = st then some (p, s) else none
    | _ => none) hist).getD (firstFormat st)

/-- Do errors abort the program?  At first only in debug builds. -/
def abortsOf (debug : Bool) (hist : List Call) : Bool :=
  (last (fun c => match c with
    | .setAbortOnErrors f => some f
    | _ => none) hist).getD debug

/-- Where a message should go. -/
def destination (k : Kind) (hist : List Call) : Sink :=
  let to := fun ch file => match callbackOf ch hist with
    | some id => Sink.callback id
    | none => file
  match k with
  | .print | .assertion => to .print .stdout
  | .log => to .log .stdout
  | .warning => to .warning .stdout
  | .error => to .error .stderr
  | .fatal => to .fatal .stderr

/-- The message with prefix and suffix. -/
def decorated (k : Kind) (hist : List Call) (text : List UInt8) : List UInt8 :=
  let put := fun st => (formatOf st hist).1 ++ text ++ (formatOf st hist).2
  match k with
  | .print | .assertion => text
  | .log => put .log
  | .warning => put .warning
  | .error => put .error
  | .fatal => put .fatal

/-- Does the message end the program? -/
def ends (debug : Bool) (k : Kind) (hist : List Call) : Bool :=
  match k with
  | .fatal => true
  | .error => abortsOf debug hist
  | _ => false

/-- What a program with these calls (and the texts of its messages) should write, after a history; and whether it ends early. -/
def expected (debug : Bool) : List Call → List (Call × List UInt8) → List (Sink × List UInt8) × Bool
  | _, [] => ([], false)
  | hist, (c, t) :: r =>
    match c with
    | .message k _ _ =>
      if ends debug k hist then ([(destination k hist, decorated k hist t)], true)
      else ((destination k hist, decorated k hist t) :: (expected debug (hist ++ [c]) r).1, (expected debug (hist ++ [c]) r).2)
    | _ => expected debug (hist ++ [c]) r

/-- The call is in order: a message is a sequence of texts and directives (Spec/Printf.lean) that writes `t`, in which there is no zero; prefixes and suffixes are
    not NULL and have no zeros. -/
def InOrder (libc : Libc) : Call × List UInt8 → Prop
  | (.message _ format args, t) => ∃ ps outs, (∀ p ∈ ps, p.Ok) ∧ Outputs libc ps outs ∧ format = ps.flatMap Piece.format ∧ args = ps.flatMap Piece.args ∧
      t = outs.flatten ∧ (0 : UInt8) ∉ t
  | (.setFormat _ p s, _) => ∃ p' s', p = some p' ∧ s = some s' ∧ (0 : UInt8) ∉ p' ∧ (0 : UInt8) ∉ s'
  | _ => True

end Messages
end Duck

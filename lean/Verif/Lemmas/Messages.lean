import Verif.Spec.Messages
import Verif.Lemmas.Printf
/-! Lemmas for C108. -/
namespace Duck
namespace Messages
open Printf (Arg Libc Piece Outputs)

theorem take_all {t : List UInt8} (h : (0 : UInt8) ∉ t) : t.takeWhile (· != 0) = t := by
  induction t with
  | nil => rfl
  | cons b t ih =>
    have hb : b ≠ 0 := fun e => h (by simp [e])
    rw [List.takeWhile_cons_of_pos (by simpa using hb), ih fun hm => h (List.mem_cons_of_mem _ hm)]

theorem formatted {libc : Libc} {ps : List Piece} {outs : List (List UInt8)} (hok : ∀ p ∈ ps, p.Ok) (hw : Outputs libc ps outs) :
    cText libc (ps.flatMap Piece.format) (ps.flatMap Piece.args) = some (outs.flatten.takeWhile (· != 0)) := by
  obtain ⟨s', h1, h2⟩ := Printf.printf_pieces Printf.acts_data hw hok ⟨[], 0⟩ []
  rw [List.append_nil] at h1
  simp only [Prod.mk.injEq] at h2
  have : s'.bytes = outs.flatten := by
    rw [← List.take_append_drop s'.cursor s'.bytes, h2.1, h2.2]
    simp
  rw [cText, h1, Option.map_some, this]

/-- The variables show the settings of the history. -/
structure Agrees (debug : Bool) (c : Config) (hist : List Call) : Prop where
  printCb : c.printfCallback = callbackOf .print hist
  logCb : c.logCallback = callbackOf .log hist
  warningCb : c.warningCallback = callbackOf .warning hist
  errorCb : c.errorCallback = callbackOf .error hist
  fatalCb : c.fatalErrorCallback = callbackOf .fatal hist
  logPre : c.logPrefix = some (formatOf .log hist).1
  logSuf : c.logSuffix = some (formatOf .log hist).2
  warningPre : c.warningPrefix = some (formatOf .warning hist).1
  warningSuf : c.warningSuffix = some (formatOf .warning hist).2
  errorPre : c.errorPrefix = some (formatOf .error hist).1
  errorSuf : c.errorSuffix = some (formatOf .error hist).2
  fatalPre : c.fatalErrorPrefix = some (formatOf .fatal hist).1
  fatalSuf : c.fatalErrorSuffix = some (formatOf .fatal hist).2
  abort : c.abortOnErrors = abortsOf debug hist
  clean : ∀ st, (0 : UInt8) ∉ (formatOf st hist).1 ∧ (0 : UInt8) ∉ (formatOf st hist).2

theorem last_snoc {α : Type} (f : Call → Option α) (hist : List Call) (c : Call) : last f (hist ++ [c]) = (f c).or (last f hist) := by
  induction hist with
  | nil => simp [last]
  | cons d hist ih => rw [List.cons_append, last, ih, last, Option.or_assoc]

theorem callback_snoc (ch : Channel) (hist : List Call) (c : Call) : callbackOf ch (hist ++ [c]) =
    match c with
    | .setCallback ch' id => if ch' = ch then id else callbackOf ch hist
    | _ => callbackOf ch hist := by
  unfold callbackOf
  rw [last_snoc]
  cases c with
  | setCallback ch' id => simp only; split <;> simp
  | _ => simp

theorem format_snoc (st : Style) (hist : List Call) (c : Call) : formatOf st (hist ++ [c]) =
    match c with
    | .setFormat st' (some p) (some s) => if st' = st then (p, s) else formatOf st hist
    | _ => formatOf st hist := by
  unfold formatOf
  rw [last_snoc]
  cases c with
  | setFormat st' p s =>
    cases p with
    | none => simp
    | some p => cases s with
      | none => simp
      | some s => simp only; split <;> simp
  | _ => simp

theorem aborts_snoc (debug : Bool) (hist : List Call) (c : Call) : abortsOf debug (hist ++ [c]) =
    match c with
    | .setAbortOnErrors f => f
    | _ => abortsOf debug hist := by
  unfold abortsOf
  rw [last_snoc]
  cases c <;> simp

theorem agrees_first (debug : Bool) : Agrees debug { abortOnErrors := debug } [] := by
  constructor <;> try rfl
  intro st
  cases st <;> decide +kernel

theorem agrees_callback {debug : Bool} {c : Config} {hist : List Call} (a : Agrees debug c hist) (ch : Channel) (id : Option Nat) :
    Agrees debug (setCallback c ch id) (hist ++ [.setCallback ch id]) := by
  cases ch <;> constructor <;>
    first
    | (intro st; rw [format_snoc]; exact a.clean st)
    | (simp only [setCallback, callback_snoc, format_snoc, aborts_snoc, reduceCtorEq, if_false, if_true]; first | done | (cases a; assumption))

theorem agrees_format {debug : Bool} {c : Config} {hist : List Call} (a : Agrees debug c hist) (st : Style) {p s : List UInt8} (hp : (0 : UInt8) ∉ p)
    (hs : (0 : UInt8) ∉ s) : Agrees debug (setFormat c st (some p) (some s)) (hist ++ [.setFormat st (some p) (some s)]) := by
  cases st <;> constructor <;>
    first
    | (intro st'; rw [format_snoc]; simp only; split
       · exact ⟨hp, hs⟩
       · exact a.clean st')
    | (simp only [setFormat, callback_snoc, format_snoc, aborts_snoc, reduceCtorEq, if_false, if_true]; first | done | (cases a; assumption))

theorem agrees_abort {debug : Bool} {c : Config} {hist : List Call} (a : Agrees debug c hist) (f : Bool) :
    Agrees debug { c with abortOnErrors := f } (hist ++ [.setAbortOnErrors f]) := by
  constructor <;>
    first
    | (intro st; rw [format_snoc]; exact a.clean st)
    | (simp only [callback_snoc, format_snoc, aborts_snoc]; first | done | (cases a; assumption))

theorem agrees_message {debug : Bool} {c : Config} {hist : List Call} (a : Agrees debug c hist) (k : Kind) (f : List UInt8) (r : List Arg) :
    Agrees debug c (hist ++ [.message k f r]) := by
  constructor <;>
    first
    | (intro st; rw [format_snoc]; exact a.clean st)
    | (simp only [callback_snoc, format_snoc, aborts_snoc]; first | done | (cases a; assumption))

theorem send_eq {libc : Libc} {debug : Bool} {c : Config} {hist : List Call} (a : Agrees debug c hist) (k : Kind) {f : List UInt8} {r : List Arg} {t : List UInt8}
    (ht : cText libc f r = some t) : send libc c k f r = some (destination k hist, decorated k hist t, ends debug k hist) := by
  unfold send
  rw [ht, Option.bind_some]
  have hc := a.clean
  cases k <;>
    simp only [destination, decorated, ends, sink, three, a.printCb, a.logCb, a.warningCb, a.errorCb, a.fatalCb, a.logPre, a.logSuf, a.warningPre, a.warningSuf, a.errorPre,
      a.errorSuf, a.fatalPre, a.fatalSuf, a.abort, Option.bind_some, Option.map_some, take_all (hc _).1, take_all (hc _).2] <;> rfl

theorem run_eq {libc : Libc} {debug : Bool} : ∀ (cs : List (Call × List UInt8)) {c : Config} {hist : List Call}, Agrees debug c hist → (∀ x ∈ cs, InOrder libc x) →
    run libc c (cs.map Prod.fst) = some (expected debug hist cs)
  | [], _, _, _, _ => rfl
  | (call, t) :: cs, c, hist, a, H => by
    have hr : ∀ x ∈ cs, InOrder libc x := fun x hx => H x (List.mem_cons_of_mem _ hx)
    have h1 := H (call, t) (by simp)
    cases call with
    | setCallback ch id => exact run_eq cs (agrees_callback a ch id) hr
    | setFormat st p s =>
      obtain ⟨p', s', rfl, rfl, hp, hs⟩ := h1
      exact run_eq cs (agrees_format a st hp hs) hr
    | setAbortOnErrors f => exact run_eq cs (agrees_abort a f) hr
    | message k f r =>
      obtain ⟨ps, outs, hok, hw, rfl, rfl, rfl, h0⟩ := h1
      have ht := formatted hok hw
      rw [take_all h0] at ht
      simp only [List.map_cons, run, expected, send_eq a k ht, Option.bind_some]
      split
      · rfl
      · rw [run_eq cs (agrees_message a k _ _) hr]
        rfl

end Messages
end Duck

import Verif.Lemmas.Messages
/-! C108: messages. -/
namespace Duck
namespace Messages
open Printf (Arg Libc Piece Outputs)

/-- **C108.**  Whatever is set and said, in any order: each message is written whole, once, in order, with the prefix and suffix last set for its kind, to the
    callback last set for its kind or to its file; a fatal error ends the program, an error only if that was asked for. -/
theorem C108_messages_partial (libc : Libc) (debug : Bool) (cs : List (Call × List UInt8)) (h : ∀ x ∈ cs, InOrder libc x) :
    run libc { abortOnErrors := debug } (cs.map Prod.fst) = some (expected debug [] cs) :=
  run_eq cs (agrees_first debug) h

/-- `DKLog( "a%@", o ); DKSetErrorCallback( f ); DKSetErrorFormat( "<", ">" ); DKError( "b" ); DKSetAbortOnErrors( true ); DKError( "c" ); DKLog( "d" )`. -/
def exampleCalls : List (Call × List UInt8) :=
  [(.message .log [0x61, 0x25, 0x40] [.obj [0x6f]], [0x61, 0x6f]), (.setCallback .error (some 7), []), (.setFormat .error (some [0x3c]) (some [0x3e]), []),
    (.message .error [0x62] [], [0x62]), (.setAbortOnErrors true, []), (.message .error [0x63] [], [0x63]), (.message .log [0x64] [], [0x64])]

example : ∀ x ∈ exampleCalls, InOrder (fun _ _ => none) x := by
  have one : ∀ b (ch : Char), Unicode.utf8 [ch] = [b] → ch ≠ '\x00' → ch ≠ '%' → (0 : UInt8) ≠ b → ∀ k, InOrder (fun _ _ => none) (.message k [b] [], [b]) := by
    intro b ch h1 h2 h3 h4 k
    refine ⟨[.text [ch]], [[b]], by simp [Piece.Ok, h2.symm, h3.symm], .cons h1.symm .nil, by simp [Piece.format, h1], rfl, rfl, by simpa using h4⟩
  intro x hx
  simp only [exampleCalls, List.mem_cons, List.not_mem_nil, or_false] at hx
  rcases hx with rfl | rfl | rfl | rfl | rfl | rfl | rfl
  · exact ⟨[.text ['a'], .obj [0x6f]], [[0x61], [0x6f]], by simp [Piece.Ok], .cons rfl (.cons rfl .nil), rfl, rfl, rfl, by decide⟩
  · trivial
  · exact ⟨_, _, rfl, rfl, by decide, by decide⟩
  · exact one 0x62 'b' rfl (by decide) (by decide) (by decide) _
  · trivial
  · exact one 0x63 'c' rfl (by decide) (by decide) (by decide) _
  · exact one 0x64 'd' rfl (by decide) (by decide) (by decide) _

example : expected false [] exampleCalls = ([(.stdout, "ao\n".toUTF8.data.toList), (.callback 7, "<b>".toUTF8.data.toList), (.callback 7, "<c>".toUTF8.data.toList)], true) := by
  decide +kernel

/-- **C108 (violated).**  A message is cut at the first zero in it, such as one in a string shown with `%@`; its suffix is still written. -/
theorem C108_nul_fails (libc : Libc) (debug : Bool) :
    run libc { abortOnErrors := debug } [.message .log [0x25, 0x40] [.obj [0x61, 0, 0x62]]] = some ([(.stdout, [0x61, 0x0a])], false) := by
  rfl

/-- **C108 (violated).**  A format of NULL is not "no prefix" but undefined. -/
theorem C108_null_fails (libc : Libc) (debug : Bool) : run libc { abortOnErrors := debug } [.setFormat .error none none, .message .error [0x61] []] = none := by
  rfl

end Messages
end Duck

import Verif.Lemmas.File
/-! # C100 files -/
namespace Duck
namespace File
open Data (Origin)

/-- **C100.** A file opened by name behaves as bytes and a position, whenever the library writes its buffers: every operation gives what that
gives, and once closed the file has those bytes, no other file changed, and closing reports success.  (For directories see below.) -/
theorem C100_file (d : Disk) (name : List UInt8) (m : Mode) (hd : ∀ n, d (cname name) ≠ some (.dir n)) (d1 : Disk) (f : Obj)
    (ho : openFile d name m = (d1, some f)) (ops : List Op) (d2 : Disk) (f2 : Obj) (outs : List Out) (hr : run d1 f ops = some (d2, f2, outs)) :
    outs = ((Abs.start d (cname name) m).run ops).2 ∧
    (closeFile d2 f2).1 (cname name) = some (.file ((Abs.start d (cname name) m).run ops).1.content) ∧
    (closeFile d2 f2).2.2 = 0 ∧ ∀ q, q ≠ cname name → (closeFile d2 f2).1 q = d q := by
  unfold openFile at ho
  obtain ⟨s, hs, rfl⟩ : ∃ s, (fopen d (cname name) m).2 = some s ∧ f = ⟨some s, true⟩ := by
    have := congrArg Prod.snd ho
    simp only at this
    obtain ⟨s, h1, h2⟩ := Option.map_eq_some_iff.mp this
    exact ⟨s, h1, h2.symm⟩
  obtain ⟨e1, _, _, e4, e5⟩ := open_holds (d := d) (m := m) (d' := (fopen d (cname name) m).1) (s := s) hd (by rw [← hs])
  rw [congrArg Prod.fst ho] at e4 e5
  obtain ⟨s2, g1, g2, g3, g4, g5⟩ := run_holds (f := ⟨some s, true⟩) rfl e4 hr
  obtain ⟨c1, c2, c3⟩ := close_holds g1 g3
  rw [g2, e1] at c1
  refine ⟨g4, c1, by rw [c2], fun q hq => ?_⟩
  rw [c3 q (by rw [g2, e1]; exact hq), g5 q (by rw [e1]; exact hq), e5 q hq]

/-- A disk with a file "f" of three bytes and a directory "d". -/
def exDisk : Disk := fun p => if p = [0x66] then some (.file [1, 2, 3]) else if p = [0x64] then some (.dir 64) else none

/-- Read one byte, seek, overwrite, go to the end, append after a gap, and read it all. -/
def exOps : List Op := [.read 1 1, .seek 0 .cur, .write [9] 1 1 false, .seek 2 .end, .write [7, 8] 2 1 true, .seek 0 .set, .read 1 10, .tell]

example : ((openFile exDisk [0x66] .rp).2.bind fun f => run (openFile exDisk [0x66] .rp).1 f exOps).map (fun r => (r.2.2, (closeFile r.1 r.2.1).1 [0x66])) =
    some ([.bytes [1] 1, .result 0, .count 1, .result 0, .count 1, .result 0, .bytes [1, 9, 3, 0, 0, 7, 8] 7, .result 7],
      some (.file [1, 9, 3, 0, 0, 7, 8])) := by decide +kernel

theorem writes_run (chunks : List (List UInt8 × Bool)) : ∀ (d : Disk) (f : Obj) (s : Stream), f.file = some s → s.mode.writes = true → s.last ≠ .input →
    ∃ d' f', run d f (writes chunks) = some (d', f', chunks.map fun c => .count c.1.length) := by
  induction chunks with
  | nil => intro d f s _ _ _; exact ⟨d, f, rfl⟩
  | cons c cs ih =>
    intro d f s hf hm hl
    have hstep : ∃ d1 s1, step d f (.write c.1 1 c.1.length c.2) = some (d1, { f with file := some s1 }, .count c.1.length) ∧ s1.mode.writes = true ∧
        s1.last ≠ .input := by
      unfold step
      rw [hf]
      simp only [fwrite, Nat.one_mul, ne_eq, not_true_eq_false, if_false]
      by_cases hz : c.1.length = 0
      · refine ⟨d, s, by simp only [hz, if_true, Option.map_some], hm, hl⟩
      · simp only [if_neg hz, hm, reduceCtorEq, if_false, if_neg hl]
        cases c.2
        · exact ⟨_, _, rfl, hm, by simp⟩
        · refine ⟨_, _, rfl, ?_, ?_⟩
          · exact hm
          · simp [flush]
    obtain ⟨d1, s1, h1, h2, h3⟩ := hstep
    obtain ⟨d2, f2, h4⟩ := ih d1 { f with file := some s1 } s1 rfl h2 h3
    refine ⟨d2, f2, ?_⟩
    show run d f (.write c.1 1 c.1.length c.2 :: writes cs) = _
    rw [run, h1, Option.bind_some, h4]
    rfl

theorem abs_writes (chunks : List (List UInt8 × Bool)) : ∀ a : Abs, a.mode.writes = true → a.pos = a.content.length ∨ a.mode.appends = true →
    (a.run (writes chunks)).1.content = a.content ++ total chunks := by
  induction chunks with
  | nil => intro a _ _; simp [writes, Abs.run, total]
  | cons c cs ih =>
    intro a hm hp
    have e : a.run (writes (c :: cs)) = ((((a.step (.write c.1 1 c.1.length c.2)).1.run (writes cs)).1),
      (a.step (.write c.1 1 c.1.length c.2)).2 :: ((a.step (.write c.1 1 c.1.length c.2)).1.run (writes cs)).2) := rfl
    rw [e]
    have htot : total (c :: cs) = c.1 ++ total cs := by simp [total]
    by_cases hz : c.1.length = 0
    · have h0 : (a.step (.write c.1 1 c.1.length c.2)).1 = a := by simp [Abs.step, hz]
      simp only [h0]
      rw [ih a hm hp, htot, List.eq_nil_of_length_eq_zero hz, List.nil_append]
    · have hat : (if a.mode.appends then a.content.length else a.pos) = a.content.length := by
        split
        · rfl
        · next h => exact hp.resolve_right h
      have h0 : (a.step (.write c.1 1 c.1.length c.2)).1 = { a with content := a.content ++ c.1, pos := a.content.length + c.1.length } := by
        simp only [Abs.step, Nat.one_mul, if_neg hz, hm, reduceCtorEq, if_false, hat]
        rw [put_end]
      simp only [h0]
      rw [ih { a with content := a.content ++ c.1, pos := a.content.length + c.1.length } hm (.inl (by simp)), htot, List.append_assoc]

theorem contents_file (d : Disk) (name : List UInt8) (b : List UInt8) (h : d (cname name) = some (.file b)) :
    contents d (.name name) = some ⟨d, b.map some, none, false⟩ := by
  have ho : openFile d name .r = (d, some ⟨some ⟨cname name, .r, 0, none, .none, false⟩, true⟩) := by
    unfold openFile fopen
    rw [h]
    rfl
  simp only [contents, ho, readAll, getLength, statSize, h]
  cases b with
  | nil => rfl
  | cons x xs =>
    rw [if_pos (by simp)]
    simp only [fread, Nat.one_mul, List.length_cons, Nat.add_eq_zero_iff, Nat.one_ne_zero, and_false, if_false, Mode.reads, Bool.true_eq_false, reduceCtorEq, h,
      Disk.bytes, List.drop_zero, Option.map_some, Nat.div_one]
    rw [List.take_of_length_le (by simp)]
    simp only [closeFile, fclose, flush, fill, List.length_cons, Nat.sub_self, List.replicate_zero, List.append_nil]

/-- **C100, partial.** The contents of a file, by name, are exactly its bytes; nothing on the disk changes.  Missing: names of directories, and
of no file, which are not told from empty files (`C100_contents_fails`). -/
theorem C100_contents_partial (d : Disk) (name : List UInt8) (b : List UInt8) (h : d (cname name) = some (.file b)) :
    ∃ r, contents d (.name name) = some r ∧ r.bytes = b.map some ∧ r.error = false ∧ ∀ q, r.disk q = d q :=
  ⟨_, contents_file d name b h, rfl, rfl, fun _ => rfl⟩

/-- **C100.** What is written to a new file, in any pieces and however they are buffered, is its contents after it is closed; the same at the
end of a file opened for appending. -/
theorem C100_save (d : Disk) (name : List UInt8) (m : Mode) (hm : m = .w ∨ m = .wp ∨ m = .a ∨ m = .ap) (hd : ∀ n, d (cname name) ≠ some (.dir n))
    (chunks : List (List UInt8 × Bool)) :
    ∃ d1 f d2 f2 outs r, openFile d name m = (d1, some f) ∧ run d1 f (writes chunks) = some (d2, f2, outs) ∧
      contents (closeFile d2 f2).1 (.name name) = some r ∧ r.error = false ∧
      r.bytes = ((if m.appends then d.bytes (cname name) else []) ++ total chunks).map some := by
  obtain ⟨d1, s, ho, hmode, hlast⟩ : ∃ d1 s, openFile d name m = (d1, some ⟨some s, true⟩) ∧ s.mode = m ∧ s.last = .none := by
    unfold openFile fopen
    cases hp : d (cname name) with
    | none => rcases hm with rfl | rfl | rfl | rfl <;> exact ⟨_, _, rfl, rfl, rfl⟩
    | some n =>
      cases n with
      | dir n => exact absurd hp (hd n)
      | file b => rcases hm with rfl | rfl | rfl | rfl <;> exact ⟨_, _, rfl, rfl, rfl⟩
  have hw : m.writes = true := by rcases hm with rfl | rfl | rfl | rfl <;> rfl
  obtain ⟨d2, f2, hr⟩ := writes_run chunks d1 ⟨some s, true⟩ s rfl (by rw [hmode]; exact hw) (by rw [hlast]; simp)
  obtain ⟨_, hc, _, _⟩ := C100_file d name m hd d1 _ ho _ d2 f2 _ hr
  obtain ⟨r, h1, h2, h3, _⟩ := C100_contents_partial (closeFile d2 f2).1 name _ hc
  refine ⟨d1, _, d2, f2, _, r, ho, hr, h1, h3, ?_⟩
  rw [h2, abs_writes chunks _ (by simpa [Abs.start] using hw)]
  · congr 2
    cases hp : d (cname name) with
    | none => rcases hm with rfl | rfl | rfl | rfl <;> simp [Abs.start, hp, Mode.appends, Disk.bytes]
    | some n =>
      cases n with
      | dir n => exact absurd hp (hd n)
      | file b => rcases hm with rfl | rfl | rfl | rfl <;> simp [Abs.start, hp, Mode.appends, Disk.bytes]
  · rcases hm with rfl | rfl | rfl | rfl
    · exact .inl rfl
    · exact .inl rfl
    · exact .inr rfl
    · exact .inr rfl

/-- "f" has bytes 1, 2, 3; 4 and 5 and 6 are appended in two pieces. -/
example : ((openFile exDisk [0x66] .a).2.bind fun f => (run (openFile exDisk [0x66] .a).1 f (writes [([4], false), ([5, 6], false)])).bind fun r =>
    (contents (closeFile r.1 r.2.1).1 (.name [0x66])).map Loaded.bytes) = some [some 1, some 2, some 3, some 4, some 5, some 6] := by decide +kernel

/-- C100 is false of names of no file, whose contents are empty without an error, and of directories, whose contents are uninitialised memory of the
size the system reports for them. -/
theorem C100_contents_fails :
    (contents exDisk (.name [0x6e])).map (fun r => (r.bytes, r.error)) = some ([], false) ∧ existsFile exDisk [0x6e] = false ∧
    (contents exDisk (.name [0x64])).map (fun r => (r.bytes, r.error)) = some (List.replicate 64 none, false) := by
  decide +kernel

/-- **C100, partial.** The contents of an open file that is at its start, with nothing in the buffer, are its bytes, and it stays open.  Missing: other
positions and buffered output (`C100_handle_fails`). -/
theorem C100_handle_partial (d : Disk) (f : Obj) (s : Stream) (b : List UInt8) (hf : f.file = some s) (hb : d s.path = some (.file b)) (hr : s.mode.reads = true)
    (hp : s.pos = 0) (hl : s.last = .none) :
    ∃ r f', contents d (.file f) = some r ∧ r.bytes = b.map some ∧ r.error = false ∧ r.file = some f' ∧ f'.file.isSome ∧ ∀ q, r.disk q = d q := by
  simp only [contents, readAll, getLength, hf, statSize, hb]
  cases b with
  | nil => exact ⟨_, _, rfl, rfl, rfl, rfl, by simp [hf], fun _ => rfl⟩
  | cons x xs =>
    rw [if_pos (by simp)]
    simp only [fread, Nat.one_mul, List.length_cons, Nat.add_eq_zero_iff, Nat.one_ne_zero, and_false, if_false, hr, Bool.true_eq_false, hl, reduceCtorEq, hb,
      Disk.bytes, hp, List.drop_zero, Option.map_some]
    refine ⟨_, _, rfl, ?_, rfl, rfl, rfl, fun _ => rfl⟩
    rw [List.take_of_length_le (by simp)]
    simp only [fill, List.length_cons, Nat.sub_self, List.replicate_zero, List.append_nil]

example : (contents exDisk (.file ⟨some ⟨[0x66], .r, 0, none, .none, false⟩, true⟩)).map (fun r => (r.bytes, r.file.map Obj.closeOnDealloc)) =
    some ([some 1, some 2, some 3], some true) := by decide +kernel

/-- C100 is false of an open file that is not at its start, whose contents are what is left and uninitialised memory, and of one with output in its
buffer: after three bytes are written to a new file its length is 0 and its contents are empty, by the file and by its name. -/
theorem C100_handle_fails :
    ((openFile exDisk [0x66] .r).2.bind fun f => (run exDisk f [.read 1 1]).bind fun r => (contents r.1 (.file r.2.1)).map Loaded.bytes) =
      some [some 2, some 3, none] ∧
    ((openFile exDisk [0x67] .wp).2.bind fun f => (run (openFile exDisk [0x67] .wp).1 f [.write [4, 5, 6] 1 3 false]).bind fun r =>
      (contents r.1 (.file r.2.1)).bind fun x => (contents r.1 (.name [0x67])).map fun y => (getLength r.1 r.2.1, x.bytes, y.bytes)) =
      some (0, [], []) := by decide +kernel

/-- **C100, partial.** After a seek the length of a file is the number of its bytes.  Missing: after a write (`C100_handle_fails`). -/
theorem C100_length_partial (d : Disk) (name : List UInt8) (m : Mode) (hd : ∀ n, d (cname name) ≠ some (.dir n)) (d1 : Disk) (f : Obj)
    (ho : openFile d name m = (d1, some f)) (ops : List Op) (offset : Int) (o : Origin) (d2 : Disk) (f2 : Obj) (outs : List Out)
    (hr : run d1 f (ops ++ [.seek offset o]) = some (d2, f2, outs)) :
    getLength d2 f2 = ((Abs.start d (cname name) m).run (ops ++ [.seek offset o])).1.content.length := by
  unfold openFile at ho
  obtain ⟨s, hs, rfl⟩ : ∃ s, (fopen d (cname name) m).2 = some s ∧ f = ⟨some s, true⟩ := by
    have := congrArg Prod.snd ho
    simp only at this
    obtain ⟨s, h1, h2⟩ := Option.map_eq_some_iff.mp this
    exact ⟨s, h1, h2.symm⟩
  obtain ⟨e1, _, _, e4, e5⟩ := open_holds (d := d) (m := m) (d' := (fopen d (cname name) m).1) (s := s) hd (by rw [← hs])
  rw [congrArg Prod.fst ho] at e4
  obtain ⟨s2, g1, g2, g3, g4, g5⟩ := run_holds (f := ⟨some s, true⟩) rfl e4 hr
  have hpend : s2.pending = none := by
    have hlast : ∀ (ops : List Op) (d : Disk) (f : Obj) (s : Stream) (a : Abs), f.file = some s → Holds d s a → ∀ d2 f2 outs,
        run d f (ops ++ [.seek offset o]) = some (d2, f2, outs) → ∀ s2, f2.file = some s2 → s2.pending = none := by
      intro ops
      induction ops with
      | nil =>
        intro d f s a hf h d2 f2 outs hr s2 hs2
        simp only [List.nil_append, run, step, hf, Option.bind_some, Option.map_some, Option.some.injEq, Prod.mk.injEq] at hr
        obtain ⟨_, rfl, _⟩ := hr
        simp only [Option.some.injEq] at hs2
        rw [← hs2]
        have := (flush_holds h).2.1
        unfold fseek
        simp only
        split <;> exact this
      | cons op ops ih =>
        intro d f s a hf h d2 f2 outs hr s2 hs2
        rw [List.cons_append, run] at hr
        obtain ⟨⟨d1, f1, o1⟩, h1, h2⟩ := Option.bind_eq_some_iff.mp hr
        obtain ⟨⟨d3, f3, o3⟩, h3, h4⟩ := Option.map_eq_some_iff.mp h2
        simp only [Prod.mk.injEq] at h4
        obtain ⟨rfl, rfl, rfl⟩ := h4
        obtain ⟨s1, q1, _, q3, _, _⟩ := step_holds hf h h1
        exact ih d1 f1 s1 _ q1 q3 _ _ _ h3 s2 hs2
    exact hlast ops d1 ⟨some s, true⟩ s _ rfl e4 d2 f2 outs hr s2 g1
  obtain ⟨b, hb⟩ := g3.file
  rw [g3.content]
  simp only [getLength, g1, statSize, hb, logical, hpend, Disk.bytes]

example : ((openFile exDisk [0x67] .wp).2.bind fun f => (run (openFile exDisk [0x67] .wp).1 f [.write [4, 5, 6] 1 3 false, .seek 0 .cur]).map fun r =>
    getLength r.1 r.2.1) = some 3 := by decide +kernel

/-- **C100, partial.** Data and a file opened for reading and writing cannot be told apart by stream operations that stay inside the content: they
give the same, and end with the same bytes.  Missing: seeks to other places (`C100_stream_fails`), empty items, and lengths. -/
theorem C100_stream_partial (d : Disk) (name : List UInt8) (m : Mode) (hm : m = .rp ∨ m = .wp) (hd : ∀ n, d (cname name) ≠ some (.dir n)) (d1 : Disk) (f : Obj)
    (ho : openFile d name m = (d1, some f)) (ops : List Op) (hin : (Abs.start d (cname name) m).AllInside ops)
    (d2 : Disk) (f2 : Obj) (outs : List Out) (hr : run d1 f ops = some (d2, f2, outs)) :
    ∃ x, dataRun ⟨if m = .wp then [] else d.bytes (cname name), 0⟩ ops = some (x, outs) ∧ (closeFile d2 f2).1 (cname name) = some (.file x.bytes) := by
  obtain ⟨c1, c2, _, _⟩ := C100_file d name m hd d1 f ho ops d2 f2 outs hr
  have hbuf : ∀ (ops : List Op) (d : Disk) (f : Obj) (s : Stream), f.file = some s → ∀ r, run d f ops = some r →
      ∀ buf size count now, Op.write buf size count now ∈ ops → buf.length = size * count := by
    intro ops
    induction ops with
    | nil => intro d f s hf r _ buf size count now h; simp at h
    | cons op ops ih =>
      intro d f s hf r hr buf size count now h
      rw [run] at hr
      obtain ⟨⟨d1, f1, o1⟩, h1, h2⟩ := Option.bind_eq_some_iff.mp hr
      obtain ⟨r3, h3, _⟩ := Option.map_eq_some_iff.mp h2
      have hopen : ∃ s1, f1.file = some s1 := by
        unfold step at h1
        rw [hf] at h1
        cases op with
        | seek offset o => simp only [Option.some.injEq, Prod.mk.injEq] at h1; exact ⟨_, by rw [← h1.2.1]⟩
        | tell => simp only [Option.some.injEq, Prod.mk.injEq] at h1; exact ⟨s, by rw [← h1.2.1]; exact hf⟩
        | status => simp only [Option.some.injEq, Prod.mk.injEq] at h1; exact ⟨s, by rw [← h1.2.1]; exact hf⟩
        | read size count => obtain ⟨q, _, h2⟩ := Option.map_eq_some_iff.mp h1; simp only [Prod.mk.injEq] at h2; exact ⟨_, by rw [← h2.2.1]⟩
        | write buf size count now => obtain ⟨q, _, h2⟩ := Option.map_eq_some_iff.mp h1; simp only [Prod.mk.injEq] at h2; exact ⟨_, by rw [← h2.2.1]⟩
      obtain ⟨s1, hs1⟩ := hopen
      rcases List.mem_cons.mp h with rfl | h
      · unfold step at h1
        rw [hf] at h1
        obtain ⟨q, hq, _⟩ := Option.map_eq_some_iff.mp h1
        unfold fwrite at hq
        split at hq
        · cases hq
        · next hne => simpa using hne
      · exact ih d1 f1 s1 hs1 r3 h3 buf size count now h
  obtain ⟨s, hs⟩ : ∃ s, f.file = some s := by
    unfold openFile at ho
    have := congrArg Prod.snd ho
    simp only at this
    obtain ⟨s, _, h2⟩ := Option.map_eq_some_iff.mp this
    exact ⟨s, by rw [← h2]⟩
  have hb := hbuf ops d1 f s hs _ hr
  have hdata : ∀ (ops : List Op) (x : Data.Obj) (a : Abs), Same x a → a.AllInside ops →
      (∀ buf size count now, Op.write buf size count now ∈ ops → buf.length = size * count) →
      ∃ x', dataRun x ops = some (x', (a.run ops).2) ∧ x'.bytes = (a.run ops).1.content := by
    intro ops
    induction ops with
    | nil => intro x a h _ _; exact ⟨x, rfl, h.1⟩
    | cons op ops ih =>
      intro x a h hi hw
      obtain ⟨x1, h1, h2⟩ := dataStep_same h hi.1 (fun buf size count now e => hw buf size count now (by rw [e]; simp))
      obtain ⟨x2, h3, h4⟩ := ih x1 _ h2 hi.2 (fun buf size count now hm => hw buf size count now (by simp [hm]))
      refine ⟨x2, ?_, h4⟩
      rw [dataRun, h1, Option.bind_some, h3]
      rfl
  have hstart : Same ⟨if m = .wp then [] else d.bytes (cname name), 0⟩ (Abs.start d (cname name) m) := by
    refine ⟨?_, rfl, Nat.zero_le _, ?_, ?_, ?_, rfl⟩
    · rcases hm with rfl | rfl
      · cases hp : d (cname name) with
        | none => simp [Abs.start, Disk.bytes, hp]
        | some n =>
          cases n with
          | dir n => exact absurd hp (hd n)
          | file b => simp [Abs.start, Disk.bytes, hp]
      · rfl
    · rcases hm with rfl | rfl <;> rfl
    · rcases hm with rfl | rfl <;> rfl
    · rcases hm with rfl | rfl <;> rfl
  obtain ⟨x, h1, h2⟩ := hdata ops _ _ hstart hin hb
  exact ⟨x, by rw [h1, c1], by rw [c2, h2]⟩

/-- Write, go back, overwrite, go to the end, go on. -/
def exSame : List Op := [.write [1, 2, 3, 4] 2 2 false, .seek (-3) .cur, .write [9] 1 1 true, .seek 0 .end, .tell, .write [5] 1 1 false, .seek 1 .set, .read 1 9]

example : (Abs.start exDisk [0x67] .wp).AllInside exSame ∧
    ((openFile exDisk [0x67] .wp).2.bind fun f => (run (openFile exDisk [0x67] .wp).1 f exSame).map fun r => r.2.2) =
      (dataRun ⟨[], 0⟩ exSame).map Prod.snd ∧
    (dataRun ⟨[], 0⟩ exSame).map Prod.snd = some [.count 2, .result 0, .count 1, .result 0, .result 4, .count 1, .result 0, .bytes [9, 3, 4, 5] 4] :=
  ⟨⟨Nat.two_pos, ⟨by decide, by decide⟩, Nat.one_pos, rfl, trivial, Nat.one_pos, ⟨by decide, by decide⟩, Nat.one_pos, trivial⟩, by decide +kernel, by decide +kernel⟩

/-- C100 is false of other seeks: one beyond the end of "f" or before its start, and one to two bytes before the end, after which data is at the end. -/
theorem C100_stream_fails :
    (run exDisk ⟨some ⟨[0x66], .rp, 0, none, .none, false⟩, true⟩ [.seek 9 .set, .tell, .seek (-1) .set, .seek (-2) .end, .tell]).map (fun r => r.2.2) =
      some [.result 0, .result 9, .result (-1), .result 0, .result 1] ∧
    (dataRun ⟨[1, 2, 3], 0⟩ [.seek 9 .set, .tell, .seek (-1) .set, .seek (-2) .end, .tell]).map Prod.snd =
      some [.result 0, .result 3, .result 0, .result 0, .result 3] := by decide +kernel

/-- C100 is false of the length of a string as a stream, which is in characters, not bytes: "é" has two bytes. -/
theorem C100_string_length_fails : stringLength [0xc3, 0xa9] = some 1 ∧ dataLength ⟨[0xc3, 0xa9], 0⟩ = 2 := by decide +kernel

/-- **C100.** After a file is closed every operation on it fails, and so does closing it again; nothing on the disk changes. -/
theorem C100_closed (d : Disk) (f : Obj) (op : Op) :
    ∃ out, step (closeFile d f).1 (closeFile d f).2.1 op = some ((closeFile d f).1, (closeFile d f).2.1, out) ∧
      (out = .result (-1) ∨ out = .bytes [] 0 ∨ out = .count 0) ∧ (closeFile (closeFile d f).1 (closeFile d f).2.1).2.2 = -1 ∧
      getLength (closeFile d f).1 (closeFile d f).2.1 = 0 := by
  have hn : (closeFile d f).2.1.file = none := by
    unfold closeFile
    split
    · rfl
    · next h => exact h
  unfold step
  rw [hn]
  refine ⟨_, rfl, ?_, ?_, ?_⟩
  · cases op <;> simp
  · rw [closeFile, hn]
  · rw [getLength, hn]

/-- **C100.** A file opened by name that is disposed of without closing it has all that was written; one made for a stream that is not its own leaves
the stream open. -/
theorem C100_dispose (d : Disk) (name : List UInt8) (m : Mode) (hd : ∀ n, d (cname name) ≠ some (.dir n)) (d1 : Disk) (f : Obj)
    (ho : openFile d name m = (d1, some f)) (ops : List Op) (d2 : Disk) (f2 : Obj) (outs : List Out) (hr : run d1 f ops = some (d2, f2, outs)) :
    ((finalize d2 f2).2 = none ∧ (finalize d2 f2).1 (cname name) = some (.file ((Abs.start d (cname name) m).run ops).1.content)) ∧
    ∀ s, finalize d2 ⟨some s, false⟩ = (d2, some s) := by
  refine ⟨?_, fun s => rfl⟩
  have hkeep : ∀ (ops : List Op) (d : Disk) (f : Obj) (r : Disk × Obj × List Out), run d f ops = some r → r.2.1.closeOnDealloc = f.closeOnDealloc := by
    intro ops
    induction ops with
    | nil => intro d f r h; cases h; rfl
    | cons op ops ih =>
      intro d f r h
      rw [run] at h
      obtain ⟨⟨d1, f1, o1⟩, h1, h2⟩ := Option.bind_eq_some_iff.mp h
      obtain ⟨r3, h3, rfl⟩ := Option.map_eq_some_iff.mp h2
      have := ih d1 f1 r3 h3
      simp only
      rw [this]
      unfold step at h1
      split at h1
      · cases h1; rfl
      · cases op with
        | seek offset o => simp only [Option.some.injEq, Prod.mk.injEq] at h1; rw [← h1.2.1]
        | tell => simp only [Option.some.injEq, Prod.mk.injEq] at h1; rw [← h1.2.1]
        | status => simp only [Option.some.injEq, Prod.mk.injEq] at h1; rw [← h1.2.1]
        | read size count => obtain ⟨q, _, h2⟩ := Option.map_eq_some_iff.mp h1; simp only [Prod.mk.injEq] at h2; rw [← h2.2.1]
        | write buf size count now => obtain ⟨q, _, h2⟩ := Option.map_eq_some_iff.mp h1; simp only [Prod.mk.injEq] at h2; rw [← h2.2.1]
  have hc : f2.closeOnDealloc = true := by
    have := hkeep ops d1 f _ hr
    simp only at this
    rw [this]
    unfold openFile at ho
    have := congrArg Prod.snd ho
    simp only at this
    obtain ⟨s, _, h2⟩ := Option.map_eq_some_iff.mp this
    rw [← h2]
  obtain ⟨_, h2, h3, _⟩ := C100_file d name m hd d1 f ho ops d2 f2 outs hr
  unfold closeFile at h2 h3
  unfold finalize
  split at h2
  · next s hs => simp only [hc, if_true, true_and]; exact h2
  · next hs => simp only [hs] at h3; exact absurd h3 (by decide)

/-- C100 is false of closing a file made for a stream that is not its own (standard output, say): the stream is closed. -/
theorem C100_close_fails : (closeFile exDisk ⟨some ⟨[0x66], .rp, 0, none, .none, false⟩, false⟩).2 = (⟨none, false⟩, 0) := by decide +kernel

end File
end Duck

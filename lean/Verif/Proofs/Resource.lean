import Verif.Model.Resource
import Verif.Spec.Resource
import Verif.Props.Transfer
import Verif.Props.File
import Verif.Props.Stdio

/-
Containers, files and standard input deliver, containers and standard output collect, as the
streams need it.
-/

namespace Cmp

/-- Byte containers, and unbuffered containers of any element. -/
theorem Ctr.delivers (cap elem : Nat) (content : List Byte) (he : elem = 1 ∨ cap = 0)
    (hd : elem ∣ content.length) :
    Ctr.reader.Delivers (fun n => n ≤ cap ∨ cap = 0) true
      (fun bs r => ∃ p, bs = content.drop p ∧ Ctr.Reading cap content elem p r) where
  read := by
    rintro bs r n hn ⟨p, rfl, h⟩
    obtain ⟨r', e, h', -⟩ := Res.read_delivering (Ctr.source elem content) h n trivial trivial hn
    refine ⟨r', e, _, ?_, h'⟩
    rw [List.drop_drop]
    have := h.inside
    simp only [List.length_take, List.length_drop]
    by_cases hle : n ≤ content.length - p
    · rw [Nat.min_eq_left hle]
    · rw [Nat.min_eq_right (by omega), List.drop_eq_nil_of_le (by omega),
        List.drop_eq_nil_of_le (by omega)]
  isAtEnd := by
    rintro bs r ⟨p, rfl, h⟩
    have := Ctr.isAtEnd_reading h he hd
    have hp := h.inside
    show Outcome.ok (Ctr.isAtEnd r) = _
    congr 1
    rw [Bool.true_and, Bool.eq_iff_iff, this, List.isEmpty_iff, List.drop_eq_nil_iff]
    omega

theorem Ctr.left_fresh (cap elem : Nat) (content : List Byte) :
    ∃ p, content = content.drop p ∧ Ctr.Reading cap content elem p (freshCtr cap elem content) :=
  ⟨0, rfl, Ctr.reading_make cap content elem⟩

/-- Byte containers that are appended to. -/
theorem Ctr.collects (cap : Nat) (content : List Byte) :
    Ctr.writer.Collects (fun _ => True)
      (fun w r => Res.Writing cap (fun _ => True)
        (Res.Overwrote (Ctr.Idle 1) content content.length) r w)
      (fun w r => r.dev.content = content ++ w) := by
  have T : Res.Takes Ctr.writeRaw (fun _ => True)
      (Res.Overwrote (Ctr.Idle 1) content content.length) :=
    ⟨fun d w bytes h _ _ => (Res.takes_overlay (Ctr.store 1) content content.length
      (Nat.le_refl _)).take d w bytes h (.inr ⟨rfl, Nat.one_dvd _⟩) (.inr ⟨rfl, Nat.one_dvd _⟩)⟩
  refine ⟨fun _ _ _ => trivial, ?_, ?_⟩
  · intro w r bytes _ h
    obtain ⟨r', e, h', -⟩ := Res.write_writing T h trivial (bytes := bytes) trivial
    exact ⟨_, r', e, h'⟩
  · intro w r h
    obtain ⟨d, e, -, q⟩ := Res.flush_writing T h trivial
    refine ⟨_, e, ?_⟩
    have := q.content_eq
    simp only [Res.overlay] at this
    simp only [this]
    rw [List.take_of_length_le (Nat.le_refl _), List.drop_eq_nil_of_le (by omega), List.append_nil]

theorem Ctr.got_fresh (cap : Nat) :
    Res.Writing cap (fun _ => True) (Res.Overwrote (Ctr.Idle 1) [] 0) (freshCtr cap 1 []) [] :=
  Res.writing_make cap _ [] ⟨rfl, rfl, rfl, rfl⟩ trivial

/-- Files: on Unix without short counts, on Windows with any. -/
theorem FileObj.delivers (P : FilePlatform) (cap : Nat) (files : Nat → Option (List Byte)) (path : Nat)
    (mode : AccessMode) (content : List Byte) (hm : mode ≠ .writeOnly)
    (hcap : cap ≤ P.most) :
    (FileObj.reader P).Delivers (fun n => n ≤ P.most ∧ (n ≤ cap ∨ cap = 0)) true
      (fun bs f => ∃ p, bs = content.drop p ∧ f.path = some path ∧
        FileObj.Reads P cap files path mode content p f) where
  read := by
    rintro bs f n ⟨hl, hn⟩ ⟨p, rfl, hp, h⟩
    obtain ⟨f', e, h', hq⟩ := FileObj.reads_reads hm hcap [n] (by simpa using hl)
      (by rcases hn with hn | hn
          · exact .inr (by simpa using hn)
          · exact .inl hn) h
    have hread : FileObj.read P n f = (.ok ⟨(content.drop p).take n,
        ((content.drop p).take n).length⟩, f') := by
      simp only [M.runList] at e
      rw [M.bind_apply] at e
      cases hx : FileObj.read P n f with
      | mk o g =>
        rw [hx] at e
        cases o with
        | ok a =>
          simp only at e
          rw [M.bind_ok (M.pure_apply _ _)] at e
          simp only [M.pure_apply, Prod.mk.injEq, Outcome.ok.injEq, Spec.ArrayCursor.reads,
            List.map_cons, List.map_nil, List.cons.injEq] at e
          obtain ⟨⟨rfl, -⟩, rfl⟩ := e
          rfl
        | throw => simp at e
        | terminate => simp at e
        | ub => simp at e
        | hang => simp at e
    refine ⟨f', hread, _, ?_, hq.trans hp, h'⟩
    rw [List.drop_drop]
    have := h.2.inside
    simp only [Spec.ArrayCursor.afterReads, List.foldl_cons, List.foldl_nil,
      Spec.ArrayCursor.afterRead, Spec.ArrayCursor.next, List.length_take, List.length_drop]
    by_cases hle : n ≤ content.length - p
    · rw [Nat.min_eq_left hle]
    · rw [Nat.min_eq_right (by omega), List.drop_eq_nil_of_le (by omega),
        List.drop_eq_nil_of_le (by omega)]
  isAtEnd := by
    rintro bs f ⟨p, rfl, hp, h⟩
    have h1 := FileObj.reads_position h
    have h2 := FileObj.reads_file h
    have hin := h.2.inside
    show FileObj.isAtEnd P f = _
    simp only [FileObj.isAtEnd, h1, hp, h2, Option.bind_some, FileDev.withFile, if_true]
    congr 1
    rw [Bool.true_and, Bool.eq_iff_iff, List.isEmpty_iff, List.drop_eq_nil_iff, beq_iff_eq]
    omega

theorem FileObj.left_fresh (P : FilePlatform) (cap : Nat) (files : Nat → Option (List Byte))
    (reads : List Nat) (path : Nat) (mode : AccessMode) (content : List Byte)
    (hc : files path = some content) (hs : P.Steady reads) :
    ∃ p, content = content.drop p ∧ (freshFile P cap files reads path mode).path = some path ∧
      FileObj.Reads P cap files path mode content p (freshFile P cap files reads path mode) := by
  refine ⟨0, rfl, ?_, freshFile_reads P cap files reads path mode content hc hs⟩
  rw [freshFile_eq P cap files reads path mode content hc]

/-- What is left on standard input, on a system that delivers at least one byte of what is left and
accepts all output. -/
def Tied.Left (capIn capOut : Nat) (bs : List Byte) (t : Tied Sys) : Prop :=
  (⟨t.inp, t.world⟩ : Res Sys).held ++ t.world.supply = bs ∧
    Res.Fed capIn Sys.ReadsProgress ⟨t.inp, t.world⟩ ∧
    ∃ w, Res.Writing capOut (fun _ => True) Sys.Got ⟨t.out, t.world⟩ w

/-- Standard input, byte by byte. -/
theorem Tied.delivers (capIn capOut : Nat) :
    Tied.stdin.Delivers (· ≤ 1) false (Tied.Left capIn capOut) where
  read := by
    rintro bs t n hn ⟨rfl, hf, w, hw⟩
    obtain ⟨d, e, hw', hg⟩ := Res.flush_writing Stdout.takes hw trivial
    have hm := Res.moves_flush Sys.writes_refl Sys.writes_trans _ Stdout.writes ⟨t.out, t.world⟩
    rw [e] at hm
    obtain ⟨hr, hs, -⟩ := hm
    simp only at hr hs
    have hf' : Res.Fed capIn Sys.ReadsProgress ⟨t.inp, d⟩ :=
      ⟨hf.length, fun x hx => hf.inv x (hr ▸ hx), hf.loaded⟩
    obtain ⟨g, r, e', hgl, hrest, hfr, hp⟩ := Res.read_fed Stdin.feeds_progress hf' n
    have hmr := Res.moves_read Sys.asks_refl Sys.asks_trans _ Stdin.asks n ⟨t.inp, d⟩
    rw [e'] at hmr
    have hheld : (⟨t.inp, d⟩ : Res Sys).held = (⟨t.inp, t.world⟩ : Res Sys).held := rfl
    rw [hheld] at hrest hp
    simp only [hs] at hrest hp
    have hgt : g = ((⟨t.inp, t.world⟩ : Res Sys).held ++ t.world.supply).take n ∧
        r.held ++ r.dev.supply =
          ((⟨t.inp, t.world⟩ : Res Sys).held ++ t.world.supply).drop n := by
      rw [hrest]
      by_cases h0 : g = []
      · subst h0
        rcases hp trivial rfl with h | h
        · subst h
          simp
        · rw [h, List.nil_append] at hrest
          rw [← hrest]
          simp
      · have : g.length = n := by
          have := List.length_pos_iff.mpr h0
          omega
        rw [List.take_left' this, List.drop_left' this]
        exact ⟨rfl, rfl⟩
    have hlog : r.dev.Got w := by
      obtain ⟨ha, l, hl, hl'⟩ := hmr
      refine ⟨?_, ha.trans hg.2⟩
      rw [hl, Sys.output_append, hg.1]
      have : Sys.output l = [] := by
        simp only [Sys.output, List.flatMap_eq_nil_iff]
        intro e he
        obtain ⟨n, g, rfl⟩ := hl' e he
        rfl
      rw [this, List.append_nil]
    refine ⟨{ t with out := { t.out with writeDirty := false, position := 0 },
                     inp := r.buf, world := r.dev }, ?_, hgt.2, hfr, w, hw'.length, hw'.position,
      hw'.clean, w, hlog, trivial, by simp [IoBuffer.pending]⟩
    rw [← hgt.1]
    show Tied.read Stdin.readRaw Stdout.writeRaw n t = _
    simp only [Tied.read]
    rw [M.bind_ok (Tied.onOut_ok e)]
    exact Tied.onIn_ok e'
  isAtEnd := fun _ _ _ => rfl

/-- Standard output. -/
theorem Tied.collects (capIn capOut : Nat) :
    Tied.stdout.Collects (fun _ => True) (fun w t => Tied.Ready capIn capOut w t)
      (fun w t => t.world.Got w) where
  shorter := fun _ _ _ => trivial
  write := by
    intro w t bytes _ h
    obtain ⟨t', e, h'⟩ := Tied.write_ready h bytes
    exact ⟨_, t', e, h'⟩
  flush := by
    intro w t h
    obtain ⟨t', e, -, hg, -⟩ := Tied.flush_ready h
    exact ⟨t', e, hg⟩

end Cmp

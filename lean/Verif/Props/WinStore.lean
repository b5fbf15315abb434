import Verif.Spec.WinStore
import Verif.Props.WinBytes
import Verif.Props.WinWorld
/-
C138: flushed bytes survive a crash, on Windows.
-/
namespace Vmap
open Spec

section
variable {tab : SysTable} {t : Target} {s0 : Vmap.Win}

/-! ### Helpers -/

/-- A byte of a file that is `b` in memory and on the way to the disk stays so under any calls. -/
theorem WinStore.calls_sent {s : Vmap.Win} {file n : Nat} {b : Byte} (hf : s.bytes.file file n = b) :
    ∀ {cs : List WinCall} {d : WinStore} {k : Nat}, d.sent file n = b →
      (d.calls s k cs).sent file n = b ∧ (d.disk file n = b → (d.calls s k cs).disk file n = b)
  | [], _, _, hs => ⟨hs, id⟩
  | c :: cs, d, k, hs => by
    unfold WinStore.calls
    have he : (d.effect s c).sent file n = b ∧ (d.disk file n = b → (d.effect s c).disk file n = b) := by
      cases c <;> simp only [WinStore.effect] <;> refine ⟨?_, ?_⟩ <;> first | exact hs | exact id | skip
      · split
        · exact hf
        · exact hs
      · intro hd
        split
        · exact hs
        · exact hd
    split
    · exact ⟨(WinStore.calls_sent hf he.1).1, fun hd => (WinStore.calls_sent hf he.1).2 (he.2 hd)⟩
    · exact WinStore.calls_sent hf hs

theorem WinUndisturbed.is {file n : Nat} {b : Byte} {w w' : WinWorld} {d d' : WinStore} (h : WinUndisturbed tab t file n b w d w' d') :
    w'.s.bytes.file file n = b := by
  induction h with
  | refl is => exact is
  | step _ _ _ is => exact is
  | writeBack _ _ _ ih => exact ih

theorem WinUndisturbed.sent {file n : Nat} {b : Byte} {w w' : WinWorld} {d d' : WinStore} (h : WinUndisturbed tab t file n b w d w' d')
    (hs : d.sent file n = b) : d'.sent file n = b ∧ (d.disk file n = b → d'.disk file n = b) := by
  induction h with
  | refl is => exact ⟨hs, id⟩
  | step before _ _ _ ih =>
    exact ⟨(WinStore.calls_sent before.is ih.1).1, fun hd => (WinStore.calls_sent before.is ih.1).2 (ih.2 hd)⟩
  | writeBack f1 f2 before ih =>
    refine ⟨?_, fun hd => ?_⟩
    · simp only [WinStore.writeBack]
      split
      · exact before.is
      · exact ih.1
    · simp only [WinStore.writeBack]
      split
      · exact ih.1
      · exact ih.2 hd

/-- What a flush that succeeded leaves behind. -/
theorem win_flush_after {s s' : Vmap.Win} {pg file len : Nat} {mode : FlushMode} (d : WinStore)
    (h : s.flush pg file len mode = (s', .ok ())) :
    d.after s s' = match mode with
      | .sync => (d.effect s (.flushViewOfFile pg len)).effect s (.flushFileBuffers file)
      | .async => d.effect s (.flushViewOfFile pg len) := by
  simp only [Win.flush, Win.simple, Win.choice] at h
  by_cases h1 : (s.oracle s.tick).ok
  · simp only [h1, if_true] at h
    cases mode with
    | async =>
      cases h
      simp [WinStore.after, Win.did, WinStore.calls, h1]
    | sync =>
      simp only [Win.did, Win.wrap] at h
      by_cases h2 : (s.oracle (s.tick + 1)).ok
      · simp only [h2, if_true] at h
        cases h
        have : s.log.length + 1 + 1 - s.log.length = 2 := by omega
        simp [WinStore.after, WinStore.calls, h1, h2, this]
      · simp only [h2] at h
        cases h
  · simp only [h1] at h
    cases h

theorem WinFileMap.step {w w' : WinWorld} {i m file off p} (h : WinFileMap tab t s0 w i m file off p) {op : WinOp}
    (sane : op.Sane t w) (st : w.step tab t op = .ok w') (held : w'.held i = some (.map m)) :
    WinFileMap tab t s0 w' i m file off p := by
  obtain ⟨reach, fits, call, later, -⟩ := h
  exact .map reach fits call (.step later sane st) held

/-! ### C138 -/

/-- A flush of `l` bytes of a map from byte `o` on has handed them to the file system, if it
succeeded (helper). -/
theorem win_flush_sent (wf : WinWf t s0) (laid : WinLaid t s0) {w : WinWorld} {i m file off p}
    (h : WinFileMap tab t s0 w i m file off p) (hp : p ≠ .readCopy) {addr sz o l : Nat}
    (hin : o + l ≤ m.len) (pages : WinPages s0.page (m.ptr + o) l addr sz) (d : WinStore) {j : Nat} (hj : o ≤ j)
    (hj' : j < o + l) :
    (d.effect w.s (.flushViewOfFile addr sz)).sent file (off + j) = w.s.bytes.file file (off + j) := by
  obtain ⟨r, v, mine, h1, h2, h3, -, -⟩ := h.known wf laid
  have hv := h3 j (by omega)
  obtain ⟨-, hb, -, he⟩ := mine.owns
  obtain ⟨-, -, p1, -, p2, -⟩ := pages
  simp only [WinStore.effect]
  rw [if_pos]
  rw [List.any_eq_true]
  refine ⟨v, mine.view, ?_⟩
  simp only [WinView.flushes, decide_eq_true_eq]
  have hc : v.access.copy = false := by
    cases hx : v.access.copy with
    | false => rfl
    | true => exact absurd (h2.copy.mp hx) hp
  refine ⟨h1, hc, by omega, by omega, by omega, .inl (by omega)⟩

/-- A `flush_range` that succeeded is a `flush` of some range, and inside the map (helper). -/
theorem win_flushRange_ok {s s' : Vmap.Win} {m : MapMut} {file o l : Nat} {mode : FlushMode}
    (ok : s.flushRange t m file o l mode = .ok (s', .ok ())) :
    (∃ pg len, s.flush pg file len mode = (s', .ok ())) ∧ (o + l < t.lim → o + l ≤ m.len) := by
  constructor
  · simp only [Win.flushRange, bind, Except.bind] at ok
    split at ok
    · cases ok
    split at ok
    · cases ok
    split at ok
    · cases ok
    exact ⟨_, _, Except.ok.inj ok⟩
  · intro hl
    apply Decidable.byContradiction
    intro hc
    rw [(C108_rejected_partial (by omega) hl).1] at ok
    cases ok

/-- C138: after `flush_range` with `Flush::Sync` has returned `Ok`, on a map of a file that is not
copy-on-write and with that file, every byte of the range is on the disk; and there it stays, whatever
the program and the system do next, until the byte is changed. -/
theorem C138_sync (wf : WinWf t s0) (laid : WinLaid t s0) {w : WinWorld} {i m file off p}
    (h : WinFileMap tab t s0 w i m file off p) (hp : p ≠ .readCopy) {o l : Nat} {s' : Vmap.Win} (hl : o + l < t.lim)
    (ok : w.s.flushRange t m file o l .sync = .ok (s', .ok ())) (d : WinStore) {j : Nat}
    (hj : o ≤ j) (hj' : j < o + l) {w2 : WinWorld} {d2 : WinStore}
    (later : WinUndisturbed tab t file (off + j) (w.s.bytes.file file (off + j)) (w.run s') (d.after w.s s') w2 d2) :
    d2.disk file (off + j) = w.s.bytes.file file (off + j) := by
  obtain ⟨r, _, mine, -⟩ := h.known wf laid
  have hin := (win_flushRange_ok ok).2 hl
  obtain ⟨v, addr, sz, -, -, pages, -, -, hfl, -⟩ := C108_range wf laid r mine.held hin
  rw [hfl] at ok
  have hs := win_flush_sent wf laid h hp hin pages d hj hj'
  have he := win_flush_after d (Except.ok.inj ok)
  refine (later.sent ?_).2 ?_ <;> rw [he]
  · exact hs
  · simp only [WinStore.effect, if_true] at hs ⊢
    exact hs

/-- C138: the same after `flush`, of every byte of the map. -/
theorem C138_whole (wf : WinWf t s0) (laid : WinLaid t s0) {w : WinWorld} {i m file off p}
    (h : WinFileMap tab t s0 w i m file off p) (hp : p ≠ .readCopy) {s' : Vmap.Win}
    (ok : w.s.flushMap t m file .sync = .ok (s', .ok ())) (d : WinStore) {j : Nat}
    (hj : j < m.len) {w2 : WinWorld} {d2 : WinStore}
    (later : WinUndisturbed tab t file (off + j) (w.s.bytes.file file (off + j)) (w.run s') (d.after w.s s') w2 d2) :
    d2.disk file (off + j) = w.s.bytes.file file (off + j) := by
  obtain ⟨r, _, mine, -⟩ := h.known wf laid
  obtain ⟨v, addr, sz, -, -, pages, -, -, -, -, -, -, hw⟩ :=
    C108_range wf laid r mine.held (off := 0) (len := m.len) (by omega)
  rw [(hw rfl rfl).1] at ok
  have hs := win_flush_sent wf laid h hp (by omega) pages d (Nat.zero_le j) (by omega)
  have he := win_flush_after d (Except.ok.inj ok)
  refine (later.sent ?_).2 ?_ <;> rw [he]
  · exact hs
  · simp only [WinStore.effect, if_true] at hs ⊢
    exact hs

/-- C138: after `flush_range` with `Flush::Async` has returned `Ok`, the next flush with `Flush::Sync`
that returns `Ok` with the same file, of whatever range of whatever map, brings the bytes to the disk, if they
have not been changed in between; and there they stay until they are changed. -/
theorem C138_async (wf : WinWf t s0) (laid : WinLaid t s0) {w : WinWorld} {i m file off p}
    (h : WinFileMap tab t s0 w i m file off p) (hp : p ≠ .readCopy) {o l : Nat} {s' : Vmap.Win} (hl : o + l < t.lim)
    (ok : w.s.flushRange t m file o l .async = .ok (s', .ok ())) (d : WinStore) {j : Nat}
    (hj : o ≤ j) (hj' : j < o + l) {w2 : WinWorld} {d2 : WinStore}
    (between : WinUndisturbed tab t file (off + j) (w.s.bytes.file file (off + j)) (w.run s') (d.after w.s s') w2 d2)
    {m2 : MapMut} {o2 l2 : Nat} {s3 : Vmap.Win} (sync : w2.s.flushRange t m2 file o2 l2 .sync = .ok (s3, .ok ()))
    {w4 : WinWorld} {d4 : WinStore}
    (later : WinUndisturbed tab t file (off + j) (w.s.bytes.file file (off + j)) (w2.run s3) (d2.after w2.s s3) w4 d4) :
    d4.disk file (off + j) = w.s.bytes.file file (off + j) := by
  obtain ⟨r, _, mine, -⟩ := h.known wf laid
  have hin := (win_flushRange_ok ok).2 hl
  obtain ⟨v, addr, sz, -, -, pages, -, -, hfl, -⟩ := C108_range wf laid r mine.held hin
  rw [hfl] at ok
  have hs := win_flush_sent wf laid h hp hin pages d hj hj'
  have he := win_flush_after d (Except.ok.inj ok)
  have h2 : d2.sent file (off + j) = w.s.bytes.file file (off + j) := by
    refine (between.sent ?_).1
    rw [he]; exact hs
  obtain ⟨pg, len, hq⟩ := (win_flushRange_ok sync).1
  have he2 := win_flush_after d2 hq
  have h3 : (d2.effect w2.s (.flushViewOfFile pg len)).sent file (off + j) = w.s.bytes.file file (off + j) := by
    simp only [WinStore.effect]
    split
    · exact between.is
    · exact h2
  refine (later.sent ?_).2 ?_ <;> rw [he2]
  · exact h3
  · simp only [WinStore.effect, if_true] at h3 ⊢
    exact h3

/-- The program of C120, after a store of 99 in byte 5 of the file, and with a second file open. -/
def winDirty : WinWorld :=
  (winTwo.next! (.set 0 5 99)).next!
    (.files (fun f => if f = 7 then some 100000 else if f = 8 then some 10 else none)
      (winTwo.next! (.set 0 5 99)).s.bytes.file)

theorem winDirty_map :
    WinFileMap winTab ⟨.w64, true⟩ (winDemo []) winDirty 0 ⟨69206016, 100000⟩ 7 0 .readWrite := by
  refine ((winTwo_maps.1.step (op := .set 0 5 99) trivial (WinWorld.next!_eq (by decide +kernel))
    (winHeld_map (by decide +kernel))).step (op := .files _ _) trivial (WinWorld.next!_eq rfl)
    (winHeld_map (by decide +kernel)))

/-- Everything written back. -/
def winClean : WinStore :=
  ⟨fun f n => UInt8.ofNat (f + n % 251), fun f n => UInt8.ofNat (f + n % 251)⟩

/-- What a flush leaves, by computation (helper for the examples). -/
theorem winFlush_ok {w : WinWorld} {m : MapMut} {file o l : Nat} {mode : FlushMode}
    (h : (match w.s.flushRange ⟨.w64, true⟩ m file o l mode with
      | .ok (_, .ok ()) => true
      | _ => false) = true) :
    ∃ s', w.s.flushRange ⟨.w64, true⟩ m file o l mode = .ok (s', .ok ()) := by
  split at h
  · rename_i s' hs
    exact ⟨s', hs⟩
  · cases h

/-- Non-vacuity of C138: the byte is 99 on the disk after the flush, also when the map has been
dropped and the system has written back what it likes. -/
example : ∃ s', winDirty.s.flushRange ⟨.w64, true⟩ ⟨69206016, 100000⟩ 7 0 10 .sync = .ok (s', .ok ()) ∧
    winClean.disk 7 5 = 12 ∧ (∃ w3, (winDirty.run s').step winTab ⟨.w64, true⟩ (.drop 0) = .ok w3) ∧
    ∀ w3, (winDirty.run s').step winTab ⟨.w64, true⟩ (.drop 0) = .ok w3 →
      ∀ f1 f2, (((winClean.after winDirty.s s').after s' w3.s).writeBack w3.s f1 f2).disk 7 5 = 99 := by
  obtain ⟨s', hs⟩ := winFlush_ok (w := winDirty) (m := ⟨69206016, 100000⟩) (file := 7) (o := 0) (l := 10) (mode := .sync)
    (by decide +kernel)
  have hb : winDirty.s.bytes.file 7 (0 + 5) = 99 := by decide +kernel
  have hst : winDirty.step winTab ⟨.w64, true⟩ (.flush 0 7 0 10 .sync) = .ok (winDirty.run s') := by
    obtain ⟨-, _, mine, -⟩ := winDirty_map.known (winDemo_wf []) (winDemo_laid [])
    simp only [WinWorld.step, WinWorld.onMap, mine.held, hs, bind, Except.bind, pure, Except.pure]
  have hn : winDirty.run s' = winDirty.next! (.flush 0 7 0 10 .sync) := by
    simp only [WinWorld.next!, hst]
  refine ⟨s', hs, by decide +kernel, ?_, fun w3 st f1 f2 => ?_⟩
  · rw [hn]
    exact ⟨_, WinWorld.next!_eq (by decide +kernel)⟩
  obtain ⟨r, -⟩ := winDirty_map.known (winDemo_wf []) (winDemo_laid [])
  have e1 := (C120_only (winDemo_wf []) (winDemo_laid []) r (op := .flush 0 7 0 10 .sync) trivial hst
    (by intros; simp) (by intros; simp) (by intros; simp)).1
  have e2 := (C120_only (winDemo_wf []) (winDemo_laid []) (r.step (op := .flush 0 7 0 10 .sync) trivial hst)
    (op := .drop 0) trivial st (by intros; simp) (by intros; simp) (by intros; simp)).1
  have := C138_sync (winDemo_wf []) (winDemo_laid []) winDirty_map (by decide) (by decide) hs winClean (j := 5) (by decide)
    (by decide) (.writeBack f1 f2 (.step (op := .drop 0) (.refl (by rw [e1])) trivial st (by rw [e2, e1])))
  rw [hb] at this
  exact this

/-- Non-vacuity of C138: an asynchronous flush through one map, and then a synchronous one of an empty range of
the other. -/
example : ∃ s' s3, winDirty.s.flushRange ⟨.w64, true⟩ ⟨69206016, 100000⟩ 7 0 10 .async = .ok (s', .ok ()) ∧
    s'.flushRange ⟨.w64, true⟩ ⟨73404784, 3000⟩ 7 0 0 .sync = .ok (s3, .ok ()) ∧
    ((winClean.after winDirty.s s').after s' s3).disk 7 5 = 99 := by
  obtain ⟨s', hs⟩ := winFlush_ok (w := winDirty) (m := ⟨69206016, 100000⟩) (file := 7) (o := 0) (l := 10) (mode := .async)
    (by decide +kernel)
  have hb : winDirty.s.bytes.file 7 (0 + 5) = 99 := by decide +kernel
  have hst : winDirty.step winTab ⟨.w64, true⟩ (.flush 0 7 0 10 .async) = .ok (winDirty.run s') := by
    obtain ⟨-, _, mine, -⟩ := winDirty_map.known (winDemo_wf []) (winDemo_laid [])
    simp only [WinWorld.step, WinWorld.onMap, mine.held, hs, bind, Except.bind, pure, Except.pure]
  have hn : winDirty.next! (.flush 0 7 0 10 .async) = winDirty.run s' := by
    simp only [WinWorld.next!, hst]
  have hf : ∃ s3, (winDirty.next! (.flush 0 7 0 10 .async)).s.flushRange ⟨.w64, true⟩ ⟨73404784, 3000⟩ 7 0 0 .sync =
      .ok (s3, .ok ()) := winFlush_ok (by decide +kernel)
  rw [hn] at hf
  obtain ⟨s3, h3⟩ := hf
  have e1 : s'.bytes.file = winDirty.s.bytes.file := by
    obtain ⟨r, -⟩ := winDirty_map.known (winDemo_wf []) (winDemo_laid [])
    exact (C120_only (winDemo_wf []) (winDemo_laid []) r (op := .flush 0 7 0 10 .async) trivial hst
      (by intros; simp) (by intros; simp) (by intros; simp)).1
  obtain ⟨pg, len, hq⟩ := (win_flushRange_ok h3).1
  have e3 : s3.bytes.file = s'.bytes.file := by
    obtain ⟨s2, r, e, -, rest, -⟩ := C82_flush (winDirty.run s').s pg 7 len .sync
    rw [hq] at e
    cases e
    exact rest.bytes.file
  refine ⟨s', s3, hs, h3, ?_⟩
  have := C138_async (winDemo_wf []) (winDemo_laid []) winDirty_map (by decide) (by decide) hs winClean (j := 5) (by decide)
    (by decide) (.refl (by show s'.bytes.file _ _ = _; rw [e1])) h3 (.refl (by show s3.bytes.file _ _ = _; rw [e3, e1]))
  rw [hb] at this
  exact this

/-- C138: `Flush::Async` alone is not enough: the flush has returned `Ok`, and a crash now loses the
byte. -/
theorem C138_async_false : ∃ w s' d, WinFileMap winTab ⟨.w64, true⟩ (winDemo []) w 0 ⟨69206016, 100000⟩ 7 0 .readWrite ∧
    w.s.flushRange ⟨.w64, true⟩ ⟨69206016, 100000⟩ 7 0 10 .async = .ok (s', .ok ()) ∧
    (d : WinStore).disk 7 5 ≠ w.s.bytes.file 7 5 ∧ (d.after w.s s').disk 7 5 ≠ w.s.bytes.file 7 5 := by
  obtain ⟨s', hs⟩ := winFlush_ok (w := winDirty) (m := ⟨69206016, 100000⟩) (file := 7) (o := 0) (l := 10) (mode := .async)
    (by decide +kernel)
  refine ⟨winDirty, s', winClean, winDirty_map, hs, by decide +kernel, ?_⟩
  obtain ⟨pg, len, hq⟩ := (win_flushRange_ok hs).1
  rw [win_flush_after _ hq]
  show winClean.disk 7 5 ≠ _
  decide +kernel

/-- C138: with another file than the one that is mapped, `Flush::Sync` is not enough either:
nothing stops the program from passing it, the flush returns `Ok`, and a crash now loses the byte. -/
theorem C138_other_file_false : ∃ w s' d, WinFileMap winTab ⟨.w64, true⟩ (winDemo []) w 0 ⟨69206016, 100000⟩ 7 0 .readWrite ∧
    w.s.files 8 = some 10 ∧
    w.s.flushRange ⟨.w64, true⟩ ⟨69206016, 100000⟩ 8 0 10 .sync = .ok (s', .ok ()) ∧
    (d : WinStore).disk 7 5 ≠ w.s.bytes.file 7 5 ∧ (d.after w.s s').disk 7 5 ≠ w.s.bytes.file 7 5 := by
  obtain ⟨s', hs⟩ := winFlush_ok (w := winDirty) (m := ⟨69206016, 100000⟩) (file := 8) (o := 0) (l := 10) (mode := .sync)
    (by decide +kernel)
  refine ⟨winDirty, s', winClean, winDirty_map, by decide +kernel, hs, by decide +kernel, ?_⟩
  obtain ⟨pg, len, hq⟩ := (win_flushRange_ok hs).1
  rw [win_flush_after _ hq]
  show winClean.disk 7 5 ≠ _
  decide +kernel

end
end Vmap

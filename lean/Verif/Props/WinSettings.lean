import Verif.Proofs.WinSettings
import Verif.Props.WinBytes
/-
Property theorems C145 and C146: conversions between `Map` and `MapMut`, and locked memory, at every
point of every program on Windows.
-/
namespace Vmap
open Spec

section
variable {tab : SysTable} {t : Target} {s0 : Vmap.Win}

/-! ### C145 -/

/-- What is known of a map at every later point (helper). -/
theorem WinNewMap.known (wf : WinWf t s0) (laid : WinLaid t s0) {w w' : WinWorld} {i m p}
    (made : WinNewMap tab t s0 w i m p) (later : WinLater tab t w w') (held : w'.held i = some (.map m)) :
    WinReach tab t s0 w' ∧ ∃ v, WinMine s0 w' i m v ∧ WinAllows p v.access ∧
      (p = .readWrite → ∀ a, w'.s.bytes.own v.sec.id a = none) := by
  have key : WinReach tab t s0 w ∧ ∃ v, WinMine s0 w i m v ∧ WinAllows p v.access ∧
      ∀ a, w.s.bytes.own v.sec.id a = none := by
    cases made with
    | map reach fits call =>
      obtain ⟨hr, v, mine, -, h2, -, h4, -⟩ := win_made_map wf laid reach fits call
      exact ⟨hr, v, mine, h2, h4⟩
    | alloc reach fits call =>
      obtain ⟨hr, v, mine, -, h2, -, h4, -⟩ := win_made_alloc wf laid reach fits call
      exact ⟨hr, v, mine, h2, h4⟩
  obtain ⟨hr, v, mine, acc, own⟩ := key
  have := win_later_ind wf laid (P := fun w => p = .readWrite → ∀ a, w.s.bytes.own v.sec.id a = none) hr mine
    (fun _ => own) ?_ later held
  · exact ⟨hr.later later, v, this.1, acc, this.2⟩
  · intro w1 w2 op r1 m1 m2 sane st ih hp a
    have inv := r1.inv wf laid
    by_cases hs : ∃ idx b, op = .set i idx b
    · obtain ⟨idx, b, rfl⟩ := hs
      obtain ⟨hl, s', hst, rfl⟩ := win_set_fx m1.held st
      rw [m1.write inv (acc.write.mpr hp) hl] at hst
      split at hst
      · cases hst
      · split at hst <;> cases hst <;> exact ih hp a
    · rw [(win_other_step inv m1 sane st (fun idx b e => hs ⟨idx, b, e⟩)).2]
      exact ih hp a

/-- When Windows can grant write access to the pages of a map (helper). -/
theorem WinMine.protect {w : WinWorld} {i m v} (inv : WinInv t s0 w) (mine : WinMine s0 w i m v) {p : Protect}
    (acc : WinAllows p v.access) (pos : 0 < m.len) {addr sz : Nat} (pages : WinPages w.s.page m.ptr m.len addr sz) :
    ∃ s2 r, w.s.protect addr sz .readWrite = (s2, r) ∧ s2.views = w.s.views ∧ s2.locked = w.s.locked ∧
      s2.bytes = w.s.bytes ∧ s2.files = w.s.files ∧ s2.page = w.s.page ∧
      (r = .ok () ↔ (w.s.oracle w.s.tick).ok = true ∧ (p = .readWrite ∨ p = .readCopy)) ∧
      (∀ e, r = .error e → e = Error.lastOsError .protect (w.s.oracle w.s.tick).code) := by
  obtain ⟨s2, r, h1, -, h3, h4, h5, h6, h7⟩ := C82_protect w.s addr sz .readWrite
  have still := WinStill.protect w.s addr sz .readWrite
  rw [h1] at still
  refine ⟨s2, r, h1, h3, h4, still.bytes, still.files, still.quiet.keeps.page, ?_, h7⟩
  rw [h6]
  refine and_congr_right fun _ => ?_
  have hu := inv.wf.page_pos
  have mv : MapView w.s.gran m v := by rw [inv.keeps.gran]; exact mine.owns
  constructor
  · intro h
    have := pages.upper
    have := pages.lower
    obtain ⟨x, x1, x2, x3⟩ := h m.ptr (by omega) (by omega)
    have hx := inv.laid.addr_inj x1 mine.view x2 (win_page_on inv.wf mv pos)
    subst hx
    exact x3.imp acc.write.mp acc.copy.mp
  · intro h x x1 x2
    refine ⟨v, mine.view, ?_, h.imp acc.write.mpr acc.copy.mpr⟩
    obtain ⟨q1, q2⟩ := (pages.on hu (x / w.s.page)).mp ⟨x, x1, x2, rfl⟩
    obtain ⟨a, b, c, d⟩ := mv
    refine ⟨?_, by omega⟩
    obtain ⟨k, hk⟩ := Nat.dvd_trans inv.wf.page_dvd a
    have hk' : v.base = k * w.s.page := by rw [hk, Nat.mul_comm]
    have : k < x / w.s.page + 1 := Nat.lt_of_mul_lt_mul_right (a := w.s.page) (by omega)
    have := Nat.mul_le_mul_right w.s.page (show k ≤ x / w.s.page by omega)
    omega

/-- C145: `into_map_mut`, on a map that was made with access `p` at any point of a program and is still
held: it does not panic; it succeeds exactly if Windows grants write access, which it can only if
the map was made with `write()` or `copy()`; the map is the same map, and what is mapped, what is locked, all
files and all bytes stay the same; if it fails, the error says so and the map is given back. -/
theorem C145_into_map_mut (wf : WinWf t s0) (laid : WinLaid t s0) {w w' : WinWorld} {i m p}
    (made : WinNewMap tab t s0 w i m p) (later : WinLater tab t w w') (held : w'.held i = some (.map m))
    (pos : 0 < m.len) :
    ∃ s2 r, w'.s.intoMapMut t ⟨m⟩ = .ok (s2, r) ∧
      ((∃ m', r = .ok m') ↔ (w'.s.oracle w'.s.tick).ok = true ∧ (p = .readWrite ∨ p = .readCopy)) ∧
      (∀ m', r = .ok m' → m' = m) ∧
      (∀ e m', r = .error (e, m') → m' = ⟨m⟩ ∧ e = Error.lastOsError .protect (w'.s.oracle w'.s.tick).code) ∧
      s2.views = w'.s.views ∧ s2.locked = w'.s.locked ∧ s2.bytes = w'.s.bytes ∧ s2.files = w'.s.files := by
  obtain ⟨reach, v, mine, acc, -⟩ := made.known wf laid later held
  have inv := reach.inv wf laid
  obtain ⟨x, addr, sz, -, -, h3, -, -, -, -, -, -, h10⟩ := C108_range wf laid reach held (off := 0) (len := m.len)
    (by omega)
  obtain ⟨-, -, -, -, -, hc⟩ := h10 rfl rfl
  rw [← inv.keeps.page, Nat.add_zero] at h3
  obtain ⟨s2, r, g1, g2, g3, g4, g5, -, g7, g8⟩ := mine.protect inv acc pos h3
  rw [g1] at hc
  cases r with
  | ok u =>
    exact ⟨s2, .ok m, hc, ⟨fun _ => g7.mp rfl, fun _ => ⟨m, rfl⟩⟩, fun m' h => by injection h with h; exact h.symm,
      fun _ _ h => (nomatch h), g2, g3, g4, g5⟩
  | error e =>
    refine ⟨s2, .error (e, ⟨m⟩), hc, ⟨fun ⟨_, h⟩ => (nomatch h), fun h => (nomatch (g7.mpr h))⟩, fun m' h => (nomatch h),
      fun e' m' h => ?_, g2, g3, g4, g5⟩
    injection h with h
    injection h with h h'
    exact ⟨h'.symm, by rw [← h]; exact g8 e rfl⟩

/-- C145: `into_map`, likewise.  (It too asks for *write* access, so it fails for a map that cannot have
it.) -/
theorem C145_into_map (wf : WinWf t s0) (laid : WinLaid t s0) {w w' : WinWorld} {i m p}
    (made : WinNewMap tab t s0 w i m p) (later : WinLater tab t w w') (held : w'.held i = some (.map m))
    (pos : 0 < m.len) :
    ∃ s2 r, w'.s.intoMap t m = .ok (s2, r) ∧
      ((∃ m', r = .ok m') ↔ (w'.s.oracle w'.s.tick).ok = true ∧ (p = .readWrite ∨ p = .readCopy)) ∧
      (∀ m', r = .ok m' → m' = ⟨m⟩) ∧
      (∀ e m', r = .error (e, m') → m' = m ∧ e = Error.lastOsError .protect (w'.s.oracle w'.s.tick).code) ∧
      s2.views = w'.s.views ∧ s2.locked = w'.s.locked ∧ s2.bytes = w'.s.bytes ∧ s2.files = w'.s.files := by
  obtain ⟨reach, v, mine, acc, -⟩ := made.known wf laid later held
  have inv := reach.inv wf laid
  obtain ⟨x, addr, sz, -, -, h3, -, -, -, -, -, -, h10⟩ := C108_range wf laid reach held (off := 0) (len := m.len)
    (by omega)
  obtain ⟨-, -, -, -, hc, -⟩ := h10 rfl rfl
  rw [← inv.keeps.page, Nat.add_zero] at h3
  obtain ⟨s2, r, g1, g2, g3, g4, g5, -, g7, g8⟩ := mine.protect inv acc pos h3
  rw [g1] at hc
  cases r with
  | ok u =>
    exact ⟨s2, .ok ⟨m⟩, hc, ⟨fun _ => g7.mp rfl, fun _ => ⟨⟨m⟩, rfl⟩⟩, fun m' h => by injection h with h; exact h.symm,
      fun _ _ h => (nomatch h), g2, g3, g4, g5⟩
  | error e =>
    refine ⟨s2, .error (e, m), hc, ⟨fun ⟨_, h⟩ => (nomatch h), fun h => (nomatch (g7.mpr h))⟩, fun m' h => (nomatch h),
      fun e' m' h => ?_, g2, g3, g4, g5⟩
    injection h with h
    injection h with h h'
    exact ⟨h'.symm, by rw [← h]; exact g8 e rfl⟩

/-- C145: a conversion changes no byte that the map shows. -/
theorem C145_bytes (wf : WinWf t s0) (laid : WinLaid t s0) {w w' : WinWorld} {i m p}
    (made : WinNewMap tab t s0 w i m p) (later : WinLater tab t w w') (held : w'.held i = some (.map m))
    (pos : 0 < m.len) {s2 : Vmap.Win}
    (call : (∃ r, w'.s.intoMapMut t ⟨m⟩ = .ok (s2, r)) ∨ ∃ r, w'.s.intoMap t m = .ok (s2, r)) (j : Nat) :
    s2.get m j = w'.s.get m j := by
  have key : s2.views = w'.s.views ∧ s2.bytes = w'.s.bytes ∧ s2.files = w'.s.files ∧ s2.page = w'.s.page := by
    rcases call with ⟨r, call⟩ | ⟨r, call⟩
    · obtain ⟨s3, r3, h1, -, -, -, h2, -, h3, h4⟩ := C145_into_map_mut wf laid made later held pos
      rw [call] at h1
      cases h1
      exact ⟨h2, h3, h4, (win_intoMapMut_still call).quiet.keeps.page⟩
    · obtain ⟨s3, r3, h1, -, -, -, h2, -, h3, h4⟩ := C145_into_map wf laid made later held pos
      rw [call] at h1
      cases h1
      exact ⟨h2, h3, h4, (win_intoMap_still call).quiet.keeps.page⟩
  obtain ⟨h1, h2, h3, h4⟩ := key
  have hl : ∀ sec n, s2.lost sec n = w'.s.lost sec n := fun sec n => by simp only [Win.lost, h3, h4]
  simp only [Win.get, Win.load, Win.look, hl, h1, h2]

/-- C145: after `into_map_mut` succeeded, every byte that can be read can be written, and is then what was
written. -/
theorem C145_store (wf : WinWf t s0) (laid : WinLaid t s0) {w w' : WinWorld} {i m p}
    (made : WinNewMap tab t s0 w i m p) (later : WinLater tab t w w') (held : w'.held i = some (.map m))
    {s2 : Vmap.Win} {m' : MapMut} (call : w'.s.intoMapMut t ⟨m⟩ = .ok (s2, .ok m')) {j : Nat} (hj : j < m.len)
    (read : ∃ b, s2.get m' j = .ok b) (b : Byte) :
    ∃ s3, s2.set m' j b = .ok s3 ∧ s3.get m' j = .ok b := by
  have pos : 0 < m.len := by omega
  obtain ⟨s3, r3, h1, h2, h3, -, -, -, h5, -⟩ := C145_into_map_mut wf laid made later held pos
  rw [call] at h1
  injection h1 with h1
  injection h1 with h1 h1'
  subst h1 h1'
  have hm := h3 m' rfl
  subst hm
  obtain ⟨reach, v, mine, acc, own⟩ := made.known wf laid later held
  have st : w'.step tab t (.intoMapMut i) = .ok (w'.run s2) := by
    simp only [WinWorld.step, WinWorld.onMap, held, call, bind, Except.bind, pure, Except.pure]
  have r2 : WinReach tab t s0 (w'.run s2) := .step (op := .intoMapMut i) reach trivial st
  have mine2 := (mine.step (reach.inv wf laid) ((reach.inv wf laid).step (op := .intoMapMut i) trivial st)
    (x := .map m') held).2
  have inv2 := r2.inv wf laid
  obtain ⟨c, hc⟩ := read
  have after : ∀ s3, s2.store (m'.ptr + j) b = .ok s3 →
      s3.get m' j = match s3.bytes.own v.sec.id (m'.ptr + j) with
        | some b => .ok b
        | none => if s3.lost v.sec (v.off + (m'.ptr + j - v.base)) = true then .error .memory
          else .ok (s3.bytes.shown v.sec (v.off + (m'.ptr + j - v.base))) := by
    intro s3 hs
    have st3 : (w'.run s2).step tab t (.set i j b) = .ok ((w'.run s2).run s3) := by
      simp only [WinWorld.step, mine2.held, Win.set, if_pos hj, show (w'.run s2).s = s2 from rfl, hs, bind, Except.bind, pure, Except.pure]
    have mine3 := (mine2.step inv2 (inv2.step (op := .set i j b) trivial st3) (x := .map m') mine2.held).2
    have inv3 := (WinReach.step (op := .set i j b) r2 trivial st3).inv wf laid
    exact mine3.get inv3 acc hj
  simp only [Win.set, if_pos hj]
  rcases (h2.mp ⟨m', rfl⟩).2 with rfl | rfl
  · have hg := mine2.get inv2 acc hj
    have hw := mine2.write inv2 (acc.write.mpr rfl) hj b
    have own2 : s2.bytes.own v.sec.id (m'.ptr + j) = none := by
      rw [h5]; exact own rfl _
    rw [show (w'.run s2).s = s2 from rfl] at hg hw
    simp only [own2] at hg
    have hlost : ¬ s2.lost v.sec (v.off + (m'.ptr + j - v.base)) = true := by
      intro hl
      rw [if_pos hl, hc] at hg
      cases hg
    rw [if_neg hlost] at hw
    cases hf : v.sec.file with
    | none =>
      rw [hf] at hw
      refine ⟨_, hw, (after _ hw).trans ?_⟩
      simp only [own2]
      refine (if_neg ?_).trans ?_
      · exact hlost
      simp only [WinBytes.shown, hf, and_self, if_true]
    | some f =>
      rw [hf] at hw
      refine ⟨_, hw, (after _ hw).trans ?_⟩
      simp only [own2]
      refine (if_neg ?_).trans ?_
      · exact hlost
      simp only [WinBytes.shown, hf, and_self, if_true]
  · have hw : v.access.write = false := by
      cases hc : v.access.write with
      | false => rfl
      | true => exact absurd (acc.write.mp hc) (by simp)
    have hcp := acc.copy.mpr rfl
    have hlook := mine2.look inv2 hj
    change s2.look (m'.ptr + j) = _ at hlook
    have hst : ∃ s3, s2.store (m'.ptr + j) b = .ok s3 := by
      simp only [Win.get, if_pos hj] at hc
      simp only [Win.store, hlook, hw, hcp, if_true, Bool.false_eq_true, if_false, hc]
      exact ⟨_, rfl⟩
    obtain ⟨s3, hs⟩ := hst
    refine ⟨s3, hs, ?_⟩
    have hown := (mine2.copy inv2 acc hj b hs).2.2.2.2 j hj
    rw [if_pos rfl] at hown
    rw [after s3 hs, hown]

/-- C145: a map that was made with neither `write()` nor `copy()` stays as it is: `into_map_mut` always
fails, and so does every store, at every later point of the program. -/
theorem C145_never (wf : WinWf t s0) (laid : WinLaid t s0) {w w' : WinWorld} {i m p}
    (made : WinNewMap tab t s0 w i m p) (later : WinLater tab t w w') (held : w'.held i = some (.map m))
    (pos : 0 < m.len) (hp : p = .readOnly ∨ p = .readExec) :
    (∀ s2 m', w'.s.intoMapMut t ⟨m⟩ ≠ .ok (s2, .ok m')) ∧
      ∀ j, j < m.len → ∀ b, w'.s.set m j b = .error .memory := by
  constructor
  · intro s2 m' h
    obtain ⟨s3, r3, h1, h2, -⟩ := C145_into_map_mut wf laid made later held pos
    rw [h] at h1
    injection h1 with h1
    injection h1 with h1 h1'
    rcases (h2.mp ⟨m', h1'.symm⟩).2 with rfl | rfl <;> rcases hp with h | h <;> cases h
  · intro j hj b
    obtain ⟨reach, v, mine, acc, -⟩ := made.known wf laid later held
    rw [Win.set, if_pos hj]
    exact mine.refused (reach.inv wf laid) acc hp hj b

/-! ### C146 -/

/-- C146: at every point of every program on Windows, what is locked of a map is what the calls on the map
itself say: whatever is done with other maps, allocations and rings, and wherever Windows puts them. -/
theorem C146_locks (wf : WinWf t s0) (laid : WinLaid t s0) (ls : WinLocksIn s0) {w w' : WinWorld} {i m p}
    (made : WinNewMap tab t s0 w i m p) {l : Nat → Prop} (since : WinSettings tab t i m w w' l) {j : Nat}
    (hj : j < m.len) : WinLocked w'.s (m.ptr + j) ↔ l j := by
  obtain ⟨-, v, -, h⟩ := since.inv wf laid ls made
  exact h j hj

/-- C146: `unlock_range` succeeds only if everything in the pages of the range is locked. -/
theorem C146_unlock (wf : WinWf t s0) (laid : WinLaid t s0) (ls : WinLocksIn s0) {w w' : WinWorld} {i m p}
    (made : WinNewMap tab t s0 w i m p) {l : Nat → Prop} (since : WinSettings tab t i m w w' l) {off len : Nat}
    (sane : off + len < t.lim) {s2 : Vmap.Win} (call : w'.s.unlockRange t m off len = .ok (s2, .ok ())) {j : Nat}
    (hj : j < m.len) (on : OnPage w'.s.page (m.ptr + off) len ((m.ptr + j) / w'.s.page)) : l j := by
  obtain ⟨reach, v, mine, h⟩ := since.inv wf laid ls made
  exact (h j hj).mp (((win_unlock_fx (reach.inv wf laid) mine.held sane call).2.2.2.1 rfl).1 _ on)

/-- C146: no locked memory is left behind: at every point, whatever is locked is mapped. -/
theorem C146_mapped (wf : WinWf t s0) (laid : WinLaid t s0) (ls : WinLocksIn s0) {w : WinWorld}
    (reach : WinReach tab t s0 w) : WinLocksIn w.s := reach.locksIn wf laid ls

end

/-! ### Examples -/

/-- A program that maps the demo file for writing. -/
def winSet1 : WinWorld := (WinWorld.start (winDemo [])).next! (.mapIf Options.new.write 7)
/-- It allocates memory and locks it, -/
def winSet2 : WinWorld :=
  (winSet1.next! (.alloc (Options.new.write.setLen (.exact 5000)))).next! (.lock 1 0 5000)
/-- locks bytes 5000 to 9000 of the map, -/
def winSet3 : WinWorld := winSet2.next! (.lock 0 5000 4000)
/-- and unlocks bytes 5000 to 5010. -/
def winSet4 : WinWorld := winSet3.next! (.unlock 0 5000 10)

/-- A program that maps the demo file for reading. -/
def winSetRead : WinWorld := (WinWorld.start (winDemo [])).next! (.mapIf Options.new 7)

theorem winSet1_new : WinNewMap winTab ⟨.w64, true⟩ (winDemo []) winSet1 0 ⟨69206016, 100000⟩ .readWrite := by
  obtain ⟨s1, a1, a2⟩ := winNext_map (w := WinWorld.start (winDemo [])) (o := Options.new.write) (file := 7)
    (m := ⟨69206016, 100000⟩) (by decide +kernel)
  have h := WinNewMap.map (tab := winTab) (t := ⟨.w64, true⟩) (s0 := winDemo []) .start
    (opts := Options.new.write) ⟨trivial, trivial, by decide⟩ a1
  rw [← a2] at h
  exact h

theorem winSetRead_new : WinNewMap winTab ⟨.w64, true⟩ (winDemo []) winSetRead 0 ⟨69206016, 100000⟩ .readOnly := by
  obtain ⟨s1, a1, a2⟩ := winNext_map (w := WinWorld.start (winDemo [])) (o := Options.new) (file := 7)
    (m := ⟨69206016, 100000⟩) (by decide +kernel)
  have h := WinNewMap.map (tab := winTab) (t := ⟨.w64, true⟩) (s0 := winDemo []) .start
    (opts := Options.new) ⟨trivial, trivial, by decide⟩ a1
  rw [← a2] at h
  exact h

/-- Non-vacuity of C145: the writable map is converted (the theorem says so, Windows being willing), and
byte 6 can then be set; the other one is not. -/
example : (∃ s2, winSet1.s.intoMapMut ⟨.w64, true⟩ ⟨⟨69206016, 100000⟩⟩ = .ok (s2, .ok ⟨69206016, 100000⟩) ∧
      ∃ s3, s2.set ⟨69206016, 100000⟩ 6 9 = .ok s3 ∧ s3.get ⟨69206016, 100000⟩ 6 = .ok 9) ∧
    (∀ s2 m', winSetRead.s.intoMapMut ⟨.w64, true⟩ ⟨⟨69206016, 100000⟩⟩ ≠ .ok (s2, .ok m')) ∧
    winSetRead.s.get ⟨69206016, 100000⟩ 6 = .ok 13 := by
  refine ⟨?_, (C145_never (winDemo_wf []) (winDemo_laid []) winSetRead_new .refl
    (winHeld_map (by decide +kernel)) (by decide) (.inl rfl)).1, by decide +kernel⟩
  have held : winSet1.held 0 = some (.map ⟨69206016, 100000⟩) := winHeld_map (by decide +kernel)
  obtain ⟨s2, r, h1, h2, h3, -⟩ := C145_into_map_mut (winDemo_wf []) (winDemo_laid []) winSet1_new .refl held
    (by decide)
  obtain ⟨m', rfl⟩ := h2.mpr ⟨by decide +kernel, .inl rfl⟩
  have := h3 m' rfl
  subst this
  refine ⟨s2, h1, C145_store (winDemo_wf []) (winDemo_laid []) winSet1_new .refl held h1 (by decide) ⟨13, ?_⟩ 9⟩
  rw [C145_bytes (winDemo_wf []) (winDemo_laid []) winSet1_new .refl held (by decide) (.inl ⟨_, h1⟩)]
  decide +kernel

/-- A call that succeeds in the example is the step of the program (helper). -/
theorem winNext_range {w : WinWorld} {op : WinOp} {f : MapMut → Exec (Vmap.Win × Result Unit)} {m : MapMut} {i : Nat}
    (hop : w.step winTab ⟨.w64, true⟩ op = w.onMap i f) (held : w.held i = some (.map m))
    (h : (match f m with
      | .ok (_, .ok ()) => true
      | _ => false) = true) :
    ∃ s2, f m = .ok (s2, .ok ()) ∧ w.next! op = w.run s2 := by
  split at h
  · rename_i s2 hf
    refine ⟨s2, hf, ?_⟩
    simp only [WinWorld.next!, hop, WinWorld.onMap, held, hf, bind, Except.bind, pure, Except.pure]
  · cases h

/-- Non-vacuity of C146: of the map, which begins at the beginning of a page, bytes 4096 to 12287 are locked by
the call; after the second one, bytes 8192 to 12287.  Unlocking the rest once more fails. -/
example : (∀ j, j < 100000 → (WinLocked winSet3.s (69206016 + j) ↔ 4096 ≤ j ∧ j < 12288)) ∧
    (∀ j, j < 100000 → (WinLocked winSet4.s (69206016 + j) ↔ 8192 ≤ j ∧ j < 12288)) ∧
    ∀ s2, winSet4.s.unlockRange ⟨.w64, true⟩ ⟨69206016, 100000⟩ 5000 4000 ≠ .ok (s2, .ok ()) := by
  have ls : WinLocksIn (winDemo []) := fun a h => (nomatch (show false = true from h))
  have t1 : WinSettings winTab ⟨.w64, true⟩ 0 ⟨69206016, 100000⟩ winSet1 winSet1 _ := .made
  have t1' := t1.other (op := .alloc (Options.new.write.setLen (.exact 5000))) 
    (show 0 % winSet1.s.page + 5000 < (2 : Nat) ^ 64 by decide +kernel) trivial
    (WinWorld.next!_eq (by decide +kernel)) (winHeld_map (by decide +kernel)) (fun _ _ h => (nomatch h))
    (fun _ _ h => (nomatch h))
  have t2 := t1'.other (op := .lock 1 0 5000) (w2 := winSet2) trivial (show 0 + 5000 < _ by decide)
    (WinWorld.next!_eq (by decide +kernel)) (winHeld_map (by decide +kernel)) (fun _ _ h => by cases h)
    (fun _ _ h => (nomatch h))
  obtain ⟨s3, a1, a2⟩ := winNext_range (w := winSet2) (op := .lock 0 5000 4000) (i := 0)
    (f := fun m => winSet2.s.lockRange ⟨.w64, true⟩ m 5000 4000)
    (m := ⟨69206016, 100000⟩) rfl (winHeld_map (by decide +kernel)) (by decide +kernel)
  have t3 := t2.lock (show 5000 + 4000 < _ by decide) a1
  rw [← a2, show winSet2.next! (.lock 0 5000 4000) = winSet3 from rfl] at t3
  obtain ⟨s4, b1, b2⟩ := winNext_range (w := winSet3) (op := .unlock 0 5000 10) (i := 0)
    (f := fun m => winSet3.s.unlockRange ⟨.w64, true⟩ m 5000 10)
    (m := ⟨69206016, 100000⟩) rfl (winHeld_map (by decide +kernel)) (by decide +kernel)
  have t4 := t3.unlock (show 5000 + 10 < _ by decide) b1
  rw [← b2, show winSet3.next! (.unlock 0 5000 10) = winSet4 from rfl] at t4
  have p2 : winSet2.s.page = 4096 := by decide +kernel
  have p3 : winSet3.s.page = 4096 := by decide +kernel
  have p4 : winSet4.s.page = 4096 := by decide +kernel
  rw [show winSet2.s.page = 4096 from p2] at t3 t4
  rw [show winSet3.s.page = 4096 from p3] at t4
  refine ⟨fun j hj => ?_, fun j hj => ?_, fun s2 h => ?_⟩
  · rw [C146_locks (winDemo_wf []) (winDemo_laid []) ls winSet1_new t3 hj]
    simp only [OnPage, false_or, true_and]
    omega
  · rw [C146_locks (winDemo_wf []) (winDemo_laid []) ls winSet1_new t4 hj]
    simp only [OnPage, false_or, true_and]
    omega
  · have := C146_unlock (winDemo_wf []) (winDemo_laid []) ls winSet1_new t4 (by decide) h (j := 5000) (by decide)
      (by rw [show winSet4.s.page = 4096 from p4]; simp only [OnPage]; omega)
    simp only [OnPage, false_or, true_and] at this
    omega

end Vmap

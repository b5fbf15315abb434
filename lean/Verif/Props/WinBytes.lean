import Verif.Proofs.WinBytes
/-
C120–C124: the bytes of maps in whole programs on Windows.
-/
namespace Vmap
open Spec

section
variable {tab : SysTable} {t : Target} {s0 : Vmap.Win}

/-! ### C120 -/

/-- What is known of a map of a file at every later point (helper). -/
theorem WinFileMap.known (wf : WinWf t s0) (laid : WinLaid t s0) {w : WinWorld} {i m file off p}
    (h : WinFileMap tab t s0 w i m file off p) :
    WinReach tab t s0 w ∧ ∃ v, WinMine s0 w i m v ∧ v.sec.file = some file ∧ WinAllows p v.access ∧
      (∀ j, j < m.len → v.off + (m.ptr + j - v.base) = off + j) ∧ off + m.len ≤ v.sec.size ∧
      (p ≠ .readCopy → ∀ a, w.s.bytes.own v.sec.id a = none) := by
  obtain ⟨reach, fits, call, later, held⟩ := h
  obtain ⟨hr, v, mine, h1, h2, h3, h4, h5, -⟩ := win_made_map wf laid reach fits call
  rename_i w0 o s1
  refine ⟨hr.later later, v, ?_⟩
  have := win_later_ind wf laid (P := fun w => o.protect ≠ .readCopy → ∀ a, w.s.bytes.own v.sec.id a = none) hr mine
    (fun _ => h4) ?_ later held
  · exact ⟨this.1, h1, h2, h3, h5, this.2⟩
  · intro w1 w2 op r1 m1 m2 sane st ih hp a
    have inv := r1.inv wf laid
    by_cases hs : ∃ idx b, op = .set w0.next idx b
    · obtain ⟨idx, b, rfl⟩ := hs
      obtain ⟨hl, s', hst, rfl⟩ := win_set_fx m1.held st
      by_cases hw : o.protect = .readWrite
      · rw [m1.write inv (h2.write.mpr hw) hl, h1] at hst
        split at hst
        · cases hst
        · cases hst
          exact ih hp a
      · have : o.protect = .readOnly ∨ o.protect = .readExec := by
          cases ho : o.protect with
          | readOnly => exact .inl rfl
          | readExec => exact .inr rfl
          | readWrite => exact absurd ho hw
          | readCopy => exact absurd ho hp
        rw [m1.refused inv h2 this hl] at hst
        cases hst
    · rw [(win_other_step inv m1 sane st (fun idx b e => hs ⟨idx, b, e⟩)).2]
      exact ih hp a

/-- C120: at every point of every program, each byte of a read-only, writable or executable map of
a file is the file's byte at this moment (or reading it is a fault, if the file has been cut
before it). -/
theorem C120_shared (wf : WinWf t s0) (laid : WinLaid t s0) {w : WinWorld} {i m file off p}
    (h : WinFileMap tab t s0 w i m file off p) (hp : p ≠ .readCopy) {j : Nat} (hj : j < m.len) :
    (¬ WinCut w.s file (off + j) → w.s.get m j = .ok (w.s.bytes.file file (off + j))) ∧
    (WinCut w.s file (off + j) → w.s.get m j = .error .memory) := by
  obtain ⟨r, v, mine, h1, h2, h3, -, h4⟩ := h.known wf laid
  have hg := mine.get (r.inv wf laid) h2 hj
  rw [h4 hp, h3 j hj, WinBytes.shown, h1] at hg
  dsimp only at hg
  rw [hg, ← win_lost_iff h1]
  exact ⟨fun hc => if_neg hc, fun hc => if_pos hc⟩

/-- C120: indexing a map at or behind its length panics, for reading and for writing, and touches no memory; below
its length it never panics. -/
theorem C120_bounds (s : Vmap.Win) (m : MapMut) (j : Nat) (b : Byte) :
    (s.get m j = .error .panic ↔ m.len ≤ j) ∧ (s.set m j b = .error .panic ↔ m.len ≤ j) := by
  have hload : ∀ a, s.load a ≠ .error .panic := by
    intro a h
    simp only [Win.load] at h
    repeat' split at h
    all_goals cases h
  have hstore : ∀ a, s.store a b ≠ .error .panic := by
    intro a h
    unfold Win.store at h
    split at h
    · cases h
    · dsimp only at h
      split at h
      · repeat' split at h
        all_goals cases h
      · split at h
        · split at h
          · rename_i e he
            cases h
            exact hload a he
          · cases h
        · cases h
  constructor
  · unfold Win.get
    by_cases hj : j < m.len
    · rw [if_pos hj]; exact ⟨fun h => absurd h (hload _), fun h => by omega⟩
    · rw [if_neg hj]; exact ⟨fun _ => by omega, fun _ => rfl⟩
  · unfold Win.set
    by_cases hj : j < m.len
    · rw [if_pos hj]; exact ⟨fun h => absurd h (hstore _), fun h => by omega⟩
    · rw [if_neg hj]; exact ⟨fun _ => by omega, fun _ => rfl⟩

/-- C120: any two such maps of the same file agree on every byte they have in common. -/
theorem C120_agree (wf : WinWf t s0) (laid : WinLaid t s0) {w : WinWorld} {i m off p i' m' off' p' file}
    (h : WinFileMap tab t s0 w i m file off p) (h' : WinFileMap tab t s0 w i' m' file off' p')
    (hp : p ≠ .readCopy) (hp' : p' ≠ .readCopy) {j j' : Nat} (hj : j < m.len) (hj' : j' < m'.len)
    (same : off + j = off' + j') : w.s.get m j = w.s.get m' j' := by
  obtain ⟨a1, a2⟩ := C120_shared wf laid h hp hj
  obtain ⟨b1, b2⟩ := C120_shared wf laid h' hp' hj'
  rw [← same] at b1 b2
  rcases Classical.em (WinCut w.s file (off + j)) with hc | hc
  · rw [a2 hc, b2 hc]
  · rw [a1 hc, b1 hc]

/-- C120: when a store succeeds: through a writable map, inside the map, where the file is.  An
index beyond the map is a panic; without write access, or where the file is no more, a store is a
fault; and in each case nothing is stored. -/
theorem C120_store (wf : WinWf t s0) (laid : WinLaid t s0) {w : WinWorld} {i m file off p}
    (h : WinFileMap tab t s0 w i m file off p) (hp : p ≠ .readCopy) (idx : Nat) (b : Byte) :
    (m.len ≤ idx → w.step tab t (.set i idx b) = .error .panic) ∧
    (idx < m.len → p ≠ .readWrite ∨ WinCut w.s file (off + idx) →
      w.step tab t (.set i idx b) = .error .memory) ∧
    (idx < m.len → p = .readWrite → ¬ WinCut w.s file (off + idx) →
      ∃ w', w.step tab t (.set i idx b) = .ok w') := by
  obtain ⟨r, v, mine, h1, h2, h3, -, h4⟩ := h.known wf laid
  have inv := r.inv wf laid
  refine ⟨fun hl => ?_, fun hl hc => ?_, fun hl hw hc => ?_⟩
  · simp only [WinWorld.step, mine.held, Win.set, if_neg (show ¬ idx < m.len by omega), bind, Except.bind]
  · have : w.s.store (m.ptr + idx) b = .error .memory := by
      by_cases hw : p = .readWrite
      · rw [mine.write inv (h2.write.mpr hw) hl, h3 idx hl, if_pos]
        exact (win_lost_iff h1).mpr (hc.resolve_left (fun h => h hw))
      · have : p = .readOnly ∨ p = .readExec := by
          cases p with
          | readOnly => exact .inl rfl
          | readExec => exact .inr rfl
          | readWrite => exact absurd rfl hw
          | readCopy => exact absurd rfl hp
        exact mine.refused inv h2 this hl b
    simp only [WinWorld.step, mine.held, Win.set, if_pos hl, bind, Except.bind, this]
  · have : ∃ s', w.s.store (m.ptr + idx) b = .ok s' := by
      rw [mine.write inv (h2.write.mpr hw) hl, h3 idx hl, if_neg (fun h => hc ((win_lost_iff h1).mp h)), h1]
      exact ⟨_, rfl⟩
    obtain ⟨s', hs⟩ := this
    simp only [WinWorld.step, mine.held, Win.set, if_pos hl, bind, Except.bind, hs]
    exact ⟨_, rfl⟩

/-- C120: a store changes exactly one byte of exactly one file, and no length. -/
theorem C120_stored (wf : WinWf t s0) (laid : WinLaid t s0) {w w' : WinWorld} {i m file off p}
    (h : WinFileMap tab t s0 w i m file off p) (hp : p ≠ .readCopy) {idx : Nat} {b : Byte}
    (st : w.step tab t (.set i idx b) = .ok w') :
    idx < m.len ∧ w'.held = w.held ∧ w'.s.files = w.s.files ∧ ∀ f n, w'.s.bytes.file f n =
      if f = file ∧ n = off + idx then b else w.s.bytes.file f n := by
  obtain ⟨r, v, mine, h1, h2, h3, -, h4⟩ := h.known wf laid
  have inv := r.inv wf laid
  obtain ⟨hl, s', hst, rfl⟩ := win_set_fx mine.held st
  have hw : p = .readWrite := by
    cases p with
    | readWrite => rfl
    | readCopy => exact absurd rfl hp
    | readOnly => rw [mine.refused inv h2 (.inl rfl) hl] at hst; cases hst
    | readExec => rw [mine.refused inv h2 (.inr rfl) hl] at hst; cases hst
  rw [mine.write inv (h2.write.mpr hw) hl, h3 idx hl, h1] at hst
  split at hst
  · cases hst
  · cases hst
    exact ⟨hl, rfl, rfl, fun f n => rfl⟩

/-- C120: a byte stored through one map is seen at once through all maps of the file that are not
copy-on-write, and no other byte of any of them changes. -/
theorem C120_written (wf : WinWf t s0) (laid : WinLaid t s0) {w w' : WinWorld} {i m off p i' m' off' p' file}
    (h : WinFileMap tab t s0 w i m file off p) (h' : WinFileMap tab t s0 w i' m' file off' p')
    (hp : p ≠ .readCopy) (hp' : p' ≠ .readCopy) {idx : Nat} {b : Byte}
    (st : w.step tab t (.set i idx b) = .ok w') {j' : Nat} (hj' : j' < m'.len) :
    w'.s.get m' j' = if off' + j' = off + idx then .ok b else w.s.get m' j' := by
  obtain ⟨hl, hh, hf, hb⟩ := C120_stored wf laid h hp st
  have hcut : ¬ WinCut w.s file (off + idx) := by
    intro hc
    obtain ⟨-, h2, -⟩ := C120_store wf laid h hp idx b
    rw [h2 hl (.inr hc)] at st
    cases st
  have h2 : WinFileMap tab t s0 w' i' m' file off' p' := by
    obtain ⟨reach, fits, call, later, held⟩ := h'
    exact .map reach fits call (.step (op := .set i idx b) later trivial st) (by rw [hh]; exact held)
  have hpg : w'.s.page = w.s.page := by
    obtain ⟨r, -⟩ := h.known wf laid
    obtain ⟨r', -⟩ := h2.known wf laid
    rw [(r'.inv wf laid).keeps.page, (r.inv wf laid).keeps.page]
  have hce : WinCut w'.s file (off' + j') ↔ WinCut w.s file (off' + j') := by
    simp only [WinCut, hf, hpg]
  obtain ⟨a1, a2⟩ := C120_shared wf laid h2 hp' hj'
  obtain ⟨b1, b2⟩ := C120_shared wf laid h' hp' hj'
  by_cases he : off' + j' = off + idx
  · rw [if_pos he, a1 (by rw [hce, he]; exact hcut), hb, if_pos ⟨rfl, he⟩]
  · rw [if_neg he]
    rcases Classical.em (WinCut w.s file (off' + j')) with hc | hc
    · rw [a2 (hce.mpr hc), b2 hc]
    · rw [a1 (fun h => hc (hce.mp h)), b1 hc, hb, if_neg (fun h => he h.2)]

/-- C120: nothing but stores, `map_if` and changes from outside has an effect on the contents or the
length of a file. -/
theorem C120_only (wf : WinWf t s0) (laid : WinLaid t s0) {w w' : WinWorld} (r : WinReach tab t s0 w) {op : WinOp}
    (sane : op.Sane t w) (st : w.step tab t op = .ok w') (h1 : ∀ i idx b, op ≠ .set i idx b)
    (h2 : ∀ o f, op ≠ .mapIf o f) (h3 : ∀ f d, op ≠ .files f d) :
    w'.s.bytes.file = w.s.bytes.file ∧ w'.s.files = w.s.files := by
  by_cases hr : ∃ j rpos wpos mem, op = .ringUse j rpos wpos mem
  · obtain ⟨j, rpos, wpos, mem, rfl⟩ := hr
    simp only [WinWorld.step] at st
    split at st
    · cases st
      exact ⟨win_fill_file _ _ _, win_fill_files _ _ _⟩
    · cases st; exact ⟨rfl, rfl⟩
  by_cases hr' : ∃ j rpos wpos mem, op = .infUse j rpos wpos mem
  · obtain ⟨j, rpos, wpos, mem, rfl⟩ := hr'
    simp only [WinWorld.step] at st
    split at st
    · cases st
      exact ⟨win_fill_file _ _ _, win_fill_files _ _ _⟩
    · cases st; exact ⟨rfl, rfl⟩
  rcases (win_step_calm (r.inv wf laid) sane st h1 (fun a b c d e => hr ⟨a, b, c, d, e⟩)
    (fun a b c d e => hr' ⟨a, b, c, d, e⟩) h3).2 with ⟨o, f, e⟩ | ⟨a, b⟩
  · exact absurd e (h2 o f)
  · exact ⟨b, a⟩

/-! ### C121 -/

/-- C121: at every point of every program, each byte of a copy-on-write map is the map's own if it, or
another byte of its page, has been stored to through the map, with the value it then had; and the
file's byte otherwise. -/
theorem C121_copy (wf : WinWf t s0) (laid : WinLaid t s0) {w0 w : WinWorld} (reach : WinReach tab t s0 w0)
    {o : Options} (fits : Fits t o) {file : Nat} {s1 : Vmap.Win} {m : MapMut}
    (call : w0.s.mapIf tab t o file = .ok (s1, .ok (some m))) (hp : o.protect = .readCopy)
    {ov : Nat → Option Byte} (tr : WinOverlay tab t w0.next m file o.offset (w0.put s1 (.map m)) w ov)
    {j : Nat} (hj : j < m.len) :
    (∀ b, ov j = some b → w.s.get m j = .ok b) ∧
    (ov j = none → ¬ WinCut w.s file (o.offset + j) → w.s.get m j = .ok (w.s.bytes.file file (o.offset + j))) ∧
    (ov j = none → WinCut w.s file (o.offset + j) → w.s.get m j = .error .memory) := by
  obtain ⟨hr, v, mine, h1, h2, h3, h4, h5, -⟩ := win_made_map wf laid reach fits call
  have key : WinReach tab t s0 w ∧ WinMine s0 w w0.next m v ∧
      ∀ j, j < m.len → w.s.bytes.own v.sec.id (m.ptr + j) = ov j := by
    clear hj
    induction tr with
    | made => exact ⟨hr, mine, fun j _ => h4 _⟩
    | @write w1 w2 ov idx b _ st ih =>
      obtain ⟨r1, m1, e1⟩ := ih
      have inv := r1.inv wf laid
      have r2 : WinReach tab t s0 w2 := .step (op := .set w0.next idx b) r1 trivial st
      obtain ⟨hl, s', hst, rfl⟩ := win_set_fx m1.held st
      have m2 := (m1.step inv (inv.step (op := .set w0.next idx b) trivial st) m1.held).2
      refine ⟨r2, m2, fun k hk => ?_⟩
      obtain ⟨-, -, -, -, g⟩ := m1.copy inv (hp ▸ h2) hl b hst
      rw [show (w1.run s').s = s' from rfl, g k hk, e1 k hk, WinBytes.shown, h1, h3 k hk]
    | other _ sane st held noset ih =>
      obtain ⟨r1, m1, e1⟩ := ih
      have inv := r1.inv wf laid
      refine ⟨.step r1 sane st, (m1.step inv (inv.step sane st) held).2, fun k hk => ?_⟩
      rw [(win_other_step inv m1 sane st noset).2, e1 k hk]
  obtain ⟨r, mw, own⟩ := key
  have hg := mw.get (r.inv wf laid) h2 hj
  rw [own j hj, h3 j hj, WinBytes.shown, h1] at hg
  rw [hg, ← win_lost_iff h1]
  refine ⟨fun b hb => by rw [hb], fun hn hc => ?_, fun hn hc => ?_⟩
  · rw [hn]; exact if_neg hc
  · rw [hn]; exact if_pos hc

/-- C121: a store through a copy-on-write map changes no file, and no byte of any other map. -/
theorem C121_isolated (wf : WinWf t s0) (laid : WinLaid t s0) {w w' : WinWorld} {i m file off}
    (h : WinFileMap tab t s0 w i m file off .readCopy) {idx : Nat} {b : Byte}
    (st : w.step tab t (.set i idx b) = .ok w') :
    w'.s.bytes.file = w.s.bytes.file ∧ w'.s.files = w.s.files ∧
    ∀ i' m', w.held i' = some (.map m') → i' ≠ i → ∀ j, j < m'.len → w'.s.get m' j = w.s.get m' j := by
  obtain ⟨r, v, mine, h1, h2, h3, -, h4⟩ := h.known wf laid
  have inv := r.inv wf laid
  obtain ⟨hl, s', hst, rfl⟩ := win_set_fx mine.held st
  obtain ⟨c1, c2, c3, c4, -⟩ := mine.copy inv h2 hl b hst
  refine ⟨c1, c3, fun i' m' hm' hne j hj => ?_⟩
  obtain ⟨u, hu, ou⟩ := inv.there i' _ hm'
  have mine' : WinMine s0 w i' m' u := ⟨hm', hu, ou⟩
  have inv' := (inv.step (op := .set i idx b) trivial st).inv
  have m2 := (mine'.step inv (inv.step (op := .set i idx b) trivial st) hm').2
  have ho := win_other_step inv mine' (op := .set i idx b) trivial st
    (fun idx' b' e => hne (by injection e with e; exact e.symm))
  have l1 := mine'.look inv hj
  have l2 := m2.look inv' hj
  have hlost : ∀ sec n, (w.run s').s.lost sec n = w.s.lost sec n := by
    intro sec n
    show s'.lost sec n = w.s.lost sec n
    simp only [Win.lost, c3, c4]
  have hshown : ∀ n, (w.run s').s.bytes.shown u.sec n = w.s.bytes.shown u.sec n := by
    intro n
    simp only [WinBytes.shown, ho.1]
    rw [show (w.run s').s.bytes.file = w.s.bytes.file from c1]
  simp only [Win.get, if_pos hj, Win.load, l1, l2, hlost, hshown, ho.2]

/-- C121: a store through a copy-on-write map succeeds wherever the byte can be read. -/
theorem C121_store (wf : WinWf t s0) (laid : WinLaid t s0) {w : WinWorld} {i m file off}
    (h : WinFileMap tab t s0 w i m file off .readCopy) {idx : Nat} (hl : idx < m.len) (b : Byte) :
    (∃ w', w.step tab t (.set i idx b) = .ok w') ↔ ∃ c, w.s.get m idx = .ok c := by
  obtain ⟨r, v, mine, h1, h2, h3, -, h4⟩ := h.known wf laid
  have inv := r.inv wf laid
  have hw : v.access.write = false := by
    cases hc : v.access.write with
    | false => rfl
    | true => exact absurd (h2.write.mp hc) (by simp)
  have hc := h2.copy.mpr rfl
  simp only [WinWorld.step, mine.held, Win.set, Win.get, if_pos hl, Win.store, mine.look inv hl, hw, hc, if_true,
    Bool.false_eq_true, if_false, bind, Except.bind]
  cases w.s.load (m.ptr + idx) with
  | error e => exact ⟨fun ⟨_, h⟩ => (nomatch h), fun ⟨_, h⟩ => (nomatch h)⟩
  | ok c => exact ⟨fun _ => ⟨c, rfl⟩, fun _ => ⟨_, rfl⟩⟩

/-! ### C122 -/

/-- C122: allocated memory is an array of bytes, zero at first, in which each byte is what was last
stored to it through the map, whatever else the program does.  (Empty maps have no bytes.) -/
theorem C122_alloc (wf : WinWf t s0) (laid : WinLaid t s0) {w0 w : WinWorld} (reach : WinReach tab t s0 w0)
    {o : Options} (sane : WinAllocFits t w0.s.gran (o.offset % w0.s.page) o.len) {s1 : Vmap.Win} {m : MapMut}
    (call : w0.s.alloc t o = .ok (s1, .ok m)) {c : Nat → Byte}
    (tr : WinCells tab t w0.next m (w0.put s1 (.map m)) w c) {j : Nat} (hj : j < m.len) :
    w.s.get m j = .ok (c j) := by
  obtain ⟨hr, v, mine, h1, h2, ⟨d, h3⟩, h4, h5⟩ := win_made_alloc wf laid reach sane call
  have key : WinReach tab t s0 w ∧ WinMine s0 w w0.next m v ∧
      (o.protect = .readWrite → ∀ a, w.s.bytes.own v.sec.id a = none) ∧
      ∀ j, j < m.len → (w.s.bytes.own v.sec.id (m.ptr + j)).getD (w.s.bytes.mem v.sec.id (d + j)) = c j := by
    clear hj
    induction tr with
    | made => exact ⟨hr, mine, fun _ => h4, fun j _ => by
        rw [show (w0.put s1 (.map m)).s = s1 from rfl, h4, h5]; rfl⟩
    | @write w1 w2 c idx b _ st ih =>
      obtain ⟨r1, m1, n1, e1⟩ := ih
      have inv := r1.inv wf laid
      have r2 : WinReach tab t s0 w2 := .step (op := .set w0.next idx b) r1 trivial st
      obtain ⟨hl, s', hst, rfl⟩ := win_set_fx m1.held st
      have m2 := (m1.step inv (inv.step (op := .set w0.next idx b) trivial st) m1.held).2
      refine ⟨r2, m2, ?_⟩
      by_cases hw : o.protect = .readWrite
      · rw [m1.write inv (h2.write.mpr hw) hl, h3 idx hl, h1] at hst
        split at hst
        · cases hst
        · cases hst
          refine ⟨n1, fun k hk => ?_⟩
          have := e1 k hk
          simp only [WinWorld.run]
          rw [n1 hw] at this ⊢
          simp only [Option.getD_none, true_and] at this ⊢
          by_cases hki : k = idx
          · rw [if_pos (by omega), if_pos hki]
          · rw [if_neg (by omega), if_neg hki]; exact this
      · refine ⟨fun h => absurd h hw, fun k hk => ?_⟩
        have hc : o.protect = .readCopy := by
          cases ho : o.protect with
          | readWrite => exact absurd ho hw
          | readCopy => rfl
          | readOnly => rw [m1.refused inv h2 (.inl ho) hl] at hst; cases hst
          | readExec => rw [m1.refused inv h2 (.inr ho) hl] at hst; cases hst
        obtain ⟨-, g2, -, -, g⟩ := m1.copy inv (hc ▸ h2) hl b hst
        rw [show (w1.run s').s = s' from rfl, g k hk, g2]
        dsimp only
        by_cases hki : k = idx
        · rw [if_pos hki, if_pos hki]; rfl
        · rw [if_neg hki, if_neg hki, WinBytes.shown, h1, h3 k hk]
          split
          · exact e1 k hk
          · exact e1 k hk
    | other _ sane st held noset ih =>
      obtain ⟨r1, m1, n1, e1⟩ := ih
      have inv := r1.inv wf laid
      obtain ⟨g1, g2⟩ := win_other_step inv m1 sane st noset
      refine ⟨.step r1 sane st, (m1.step inv (inv.step sane st) held).2, fun h a => ?_, fun k hk => ?_⟩
      · rw [g2]; exact n1 h a
      · rw [g1, g2]; exact e1 k hk
  obtain ⟨r, mw, -, own⟩ := key
  have hg := mw.get (r.inv wf laid) h2 hj
  have := own j hj
  rw [h3 j hj, WinBytes.shown, h1] at hg
  have hlost : w.s.lost v.sec (d + j) = false := by simp only [Win.lost, h1]
  rw [hlost] at hg
  rw [hg]
  cases ho : w.s.bytes.own v.sec.id (m.ptr + j) with
  | some b => rw [ho] at this; exact congrArg _ this
  | none => rw [ho] at this; exact congrArg _ this

/-- C122: which stores to allocated memory succeed: exactly those inside the map, if the access asked
for was `ReadWrite` or `ReadCopy`; and no store to allocated memory changes a file. -/
theorem C122_store (wf : WinWf t s0) (laid : WinLaid t s0) {w0 w : WinWorld} (reach : WinReach tab t s0 w0)
    {o : Options} (sane : WinAllocFits t w0.s.gran (o.offset % w0.s.page) o.len) {s1 : Vmap.Win} {m : MapMut}
    (call : w0.s.alloc t o = .ok (s1, .ok m)) (later : WinLater tab t (w0.put s1 (.map m)) w)
    (held : w.held w0.next = some (.map m)) (idx : Nat) (b : Byte) :
    (m.len ≤ idx → w.step tab t (.set w0.next idx b) = .error .panic) ∧
    (idx < m.len → o.protect = .readOnly ∨ o.protect = .readExec →
      w.step tab t (.set w0.next idx b) = .error .memory) ∧
    (idx < m.len → o.protect = .readWrite ∨ o.protect = .readCopy →
      ∃ w', w.step tab t (.set w0.next idx b) = .ok w') ∧
    ∀ w', w.step tab t (.set w0.next idx b) = .ok w' →
      w'.s.bytes.file = w.s.bytes.file ∧ w'.s.files = w.s.files := by
  obtain ⟨hr, v, mine, h1, h2, ⟨d, h3⟩, -⟩ := win_made_alloc wf laid reach sane call
  obtain ⟨mw, -⟩ := win_later_ind wf laid (P := fun _ => True) hr mine trivial (fun _ _ _ _ _ _ _ _ _ => trivial) later held
  have inv := (hr.later later).inv wf laid
  have hlost : ∀ n, w.s.lost v.sec n = false := fun n => by simp only [Win.lost, h1]
  refine ⟨fun hl => ?_, fun hl hc => ?_, fun hl hc => ?_, fun w' st => ?_⟩
  · simp only [WinWorld.step, mw.held, Win.set, if_neg (show ¬ idx < m.len by omega), bind, Except.bind]
  · simp only [WinWorld.step, mw.held, Win.set, if_pos hl, bind, Except.bind, mw.refused inv h2 hc hl b]
  · have : ∃ s', w.s.store (m.ptr + idx) b = .ok s' := by
      rcases hc with hc | hc
      · rw [mw.write inv (h2.write.mpr hc) hl, hlost, h1]
        exact ⟨_, rfl⟩
      · have hw : v.access.write = false := by
          cases hx : v.access.write with
          | false => rfl
          | true => have := h2.write.mp hx; rw [hc] at this; cases this
        have hg := mw.get inv h2 hl
        rw [hlost] at hg
        have : ∃ x, w.s.load (m.ptr + idx) = .ok x := by
          simp only [Win.get, if_pos hl] at hg
          rw [hg]
          cases w.s.bytes.own v.sec.id (m.ptr + idx) <;> exact ⟨_, rfl⟩
        obtain ⟨x, hx⟩ := this
        simp only [Win.store, mw.look inv hl, hw, h2.copy.mpr hc, if_true, Bool.false_eq_true, if_false, hx]
        exact ⟨_, rfl⟩
    obtain ⟨s', hs⟩ := this
    simp only [WinWorld.step, mw.held, Win.set, if_pos hl, bind, Except.bind, hs]
    exact ⟨_, rfl⟩
  · obtain ⟨hl, s', hst, rfl⟩ := win_set_fx mw.held st
    by_cases hw : o.protect = .readWrite
    · rw [mw.write inv (h2.write.mpr hw) hl, hlost, h1] at hst
      cases hst
      exact ⟨rfl, rfl⟩
    · have hc : o.protect = .readCopy := by
        cases ho : o.protect with
        | readWrite => exact absurd ho hw
        | readCopy => rfl
        | readOnly => rw [mw.refused inv h2 (.inl ho) hl] at hst; cases hst
        | readExec => rw [mw.refused inv h2 (.inr ho) hl] at hst; cases hst
      obtain ⟨g1, -, g3, -⟩ := mw.copy inv (hc ▸ h2) hl b hst
      exact ⟨g1, g3⟩

/-! ### C123 -/

/-- C123: nothing the program does makes a file that it has mapped shorter than the map, neither when the
map is made nor at any later point: while nobody else shortens the file, every byte of the map can
be read. -/
theorem C123_read (wf : WinWf t s0) (laid : WinLaid t s0) {w0 w : WinWorld} (reach : WinReach tab t s0 w0)
    {o : Options} (fits : Fits t o) {file : Nat} {s1 : Vmap.Win} {m : MapMut}
    (call : w0.s.mapIf tab t o file = .ok (s1, .ok (some m)))
    (later : WinSpared tab t file (o.offset + m.len) (w0.put s1 (.map m)) w)
    (held : w.held w0.next = some (.map m)) :
    (∀ n, w.s.files file = some n → o.offset + m.len ≤ n) ∧ ∀ j, j < m.len → ∃ b, w.s.get m j = .ok b := by
  obtain ⟨hr, v, mine, h1, h2, h3, h4, h5, h6⟩ := win_made_map wf laid reach fits call
  have key : ∀ {x}, w.held w0.next = some x → WinReach tab t s0 w ∧ WinMine s0 w w0.next m v ∧
      ∀ n, w.s.files file = some n → o.offset + m.len ≤ n := by
    clear held
    have hi : ∀ {w1}, WinSpared tab t file (o.offset + m.len) (w0.put s1 (.map m)) w1 →
        WinReach tab t s0 w1 ∧ w0.next < w1.next := by
      intro w1 l1
      induction l1 with
      | refl => exact ⟨hr, mine.lt (hr.inv wf laid)⟩
      | step before sane st _ ih =>
        exact ⟨.step ih.1 sane st, Nat.lt_of_lt_of_le ih.2 ((ih.1.inv wf laid).step sane st).kept.next⟩
    induction later with
    | refl => intro x _; exact ⟨hr, mine, h6⟩
    | @step w1 w2 op before sane st spared ih =>
      intro x hx
      obtain ⟨r1, lt⟩ := hi before
      have inv := r1.inv wf laid
      have n := inv.step sane st
      obtain ⟨y, hy⟩ := WinMine.before lt n hx
      obtain ⟨-, m1, e1⟩ := ih hy
      refine ⟨.step r1 sane st, (m1.step inv n hx).2, ?_⟩
      by_cases hf : ∃ f d, op = .files f d
      · obtain ⟨f, d, rfl⟩ := hf
        cases st
        exact spared f d rfl
      by_cases hs : (∃ j idx b, op = .set j idx b) ∨ (∃ j rpos wpos mem, op = .ringUse j rpos wpos mem) ∨
          ∃ j rpos wpos mem, op = .infUse j rpos wpos mem
      · have : w2.s.files = w1.s.files := by
          rcases hs with ⟨j, idx, b, rfl⟩ | ⟨j, rpos, wpos, mem, rfl⟩ | ⟨j, rpos, wpos, mem, rfl⟩
          · exact win_set_files st
          · simp only [WinWorld.step] at st
            split at st
            · cases st; exact win_fill_files _ _ _
            · cases st; rfl
          · simp only [WinWorld.step] at st
            split at st
            · cases st; exact win_fill_files _ _ _
            · cases st; rfl
        rw [this]
        exact e1
      · refine (win_step_calm inv sane st (fun a b c e => hs (.inl ⟨a, b, c, e⟩))
          (fun a b c d e => hs (.inr (.inl ⟨a, b, c, d, e⟩))) (fun a b c d e => hs (.inr (.inr ⟨a, b, c, d, e⟩)))
          (fun a b e => hf ⟨a, b, e⟩)).1.long v m1.view file h1 _ h5 e1
  obtain ⟨r, mw, long⟩ := key held
  refine ⟨long, fun j hj => ?_⟩
  have hg := mw.get (r.inv wf laid) h2 hj
  have hlost : w.s.lost v.sec (o.offset + j) = false := by
    cases hc : w.s.lost v.sec (o.offset + j) with
    | false => rfl
    | true =>
      obtain ⟨n, a, b⟩ := (win_lost_iff h1).mp hc
      have := long n a
      have := Nat.div_mul_le_self (o.offset + j) w.s.page
      omega
  rw [h3 j hj, hlost] at hg
  rw [hg]
  cases w.s.bytes.own v.sec.id (m.ptr + j) <;> exact ⟨_, rfl⟩

/-! ### C124 -/

/-- C124: what `map_if` does to files.  Other files keep their length and their bytes.  When it
succeeds, the file has the length asked for; the bytes that were there before and have not been
truncated away are still there, and what the file has grown by is zero.  When it fails, the
file is as it was, or truncated to nothing if that was asked for, or as after success. -/
theorem C124_contents (tab : SysTable) {t : Target} {s s' : Vmap.Win} (wf : WinWf t s) {o : Options} (hf : Fits t o)
    {file : Nat} {r : Result (Option MapMut)} (h : s.mapIf tab t o file = .ok (s', r)) :
    (∀ f, f ≠ file → s'.files f = s.files f ∧ s'.bytes.file f = s.bytes.file f) ∧
    ((∃ n, s.files file = some n ∧ s'.files file = some (leftLen o.truncate o.resize n (n % t.lim)) ∧
        ∀ i, i < leftLen o.truncate o.resize n (n % t.lim) → s'.bytes.file file i =
          if i < cutLen o.truncate n (n % t.lim) then s.bytes.file file i else 0) ∨
      ∃ e, r = .error e ∧ ((s'.files file = s.files file ∧ s'.bytes.file file = s.bytes.file file) ∨
        (o.truncate = true ∧ s'.files file = some 0))) := by
  obtain ⟨-, ⟨e, he, ⟨a, b⟩ | ⟨a, now⟩⟩ | ⟨n, hn, now, -⟩⟩ := win_mapIf_bytes wf hf h
  · exact ⟨fun f _ => ⟨by rw [a], by rw [b]⟩, .inr ⟨e, he, .inl ⟨by rw [a], by rw [b]⟩⟩⟩
  · exact ⟨fun f hne => ⟨now.lens f hne, now.others f hne⟩, .inr ⟨e, he, .inr ⟨a, now.len⟩⟩⟩
  · exact ⟨fun f hne => ⟨now.lens f hne, now.others f hne⟩, .inl ⟨n, hn, now.len, now.bytes⟩⟩

end

/-! ### Non-vacuity -/

/-- The state after a step, or the state itself where the step is a fault (for the examples). -/
def WinWorld.next! (w : WinWorld) (op : WinOp) : WinWorld :=
  match w.step winTab ⟨.w64, true⟩ op with
  | .ok w' => w'
  | .error _ => w

theorem WinWorld.next!_eq {w : WinWorld} {op : WinOp}
    (h : (match w.step winTab ⟨.w64, true⟩ op with | .ok _ => true | .error _ => false) = true) :
    w.step winTab ⟨.w64, true⟩ op = .ok (w.next! op) := by
  simp only [WinWorld.next!]
  split at h
  · rename_i w' hw; rw [hw]
  · cases h

/-- `map_if`'s result in a state whose step can be computed (helper for the examples). -/
theorem winNext_map {w : WinWorld} {o : Options} {file : Nat} {m : MapMut}
    (h : (match w.s.mapIf winTab ⟨.w64, true⟩ o file with
      | .ok (_, .ok (some m')) => decide (m'.ptr = m.ptr ∧ m'.len = m.len)
      | _ => false) = true) :
    ∃ s1, w.s.mapIf winTab ⟨.w64, true⟩ o file = .ok (s1, .ok (some m)) ∧
      w.next! (.mapIf o file) = w.put s1 (.map m) := by
  cases hx : w.s.mapIf winTab ⟨.w64, true⟩ o file with
  | error e => rw [hx] at h; cases h
  | ok x =>
    obtain ⟨s1, r⟩ := x
    cases r with
    | error e => rw [hx] at h; cases h
    | ok x =>
      cases x with
      | none => rw [hx] at h; cases h
      | some m' =>
        rw [hx] at h
        simp only [decide_eq_true_eq] at h
        have : m' = m := by cases m; cases m'; simp only at h; rw [h.1, h.2]
        subst this
        refine ⟨s1, rfl, ?_⟩
        simp only [WinWorld.next!, WinWorld.step, hx, bind, Except.bind, pure, Except.pure]

/-- What a handle is, by computation (helper for the examples). -/
theorem winHeld_map {w : WinWorld} {i : Nat} {m : MapMut}
    (h : (match w.held i with
      | some (.map m') => decide (m'.ptr = m.ptr ∧ m'.len = m.len)
      | _ => false) = true) : w.held i = some (.map m) := by
  split at h
  · rename_i m' hw
    simp only [decide_eq_true_eq] at h
    rw [hw]; cases m; cases m'; simp only at h; rw [h.1, h.2]
  · cases h

/-- A program with two maps of the demo file: all of it, writable, and 3000 bytes from 70000 on,
read-only. -/
def winTwo : WinWorld :=
  ((WinWorld.start (winDemo [])).next! (.mapIf Options.new.write 7)).next!
    (.mapIf ((Options.new.setOffset 70000).setLen (.exact 3000)) 7)

theorem winTwo_maps :
    WinFileMap winTab ⟨.w64, true⟩ (winDemo []) winTwo 0 ⟨69206016, 100000⟩ 7 0 .readWrite ∧
    WinFileMap winTab ⟨.w64, true⟩ (winDemo []) winTwo 1 ⟨73404784, 3000⟩ 7 70000 .readOnly := by
  have f1 : Fits ⟨.w64, true⟩ Options.new.write := ⟨trivial, trivial, by decide⟩
  have f2 : Fits ⟨.w64, true⟩ ((Options.new.setOffset 70000).setLen (.exact 3000)) :=
    ⟨trivial, show (3000 : Nat) < _ by decide, show (70000 : Nat) < _ by decide⟩
  obtain ⟨s1, a1, a2⟩ := winNext_map (w := WinWorld.start (winDemo [])) (o := Options.new.write) (file := 7)
    (m := ⟨69206016, 100000⟩) (by decide +kernel)
  have r1 : WinReach winTab ⟨.w64, true⟩ (winDemo [])
      ((WinWorld.start (winDemo [])).next! (.mapIf Options.new.write 7)) :=
    .step (op := .mapIf Options.new.write 7) .start f1 (WinWorld.next!_eq (by decide +kernel))
  constructor
  · refine .map .start f1 a1 ?_ (winHeld_map (by decide +kernel))
    rw [← a2]
    exact .step (op := .mapIf ((Options.new.setOffset 70000).setLen (.exact 3000)) 7) .refl f2
      (WinWorld.next!_eq (by decide +kernel))
  · obtain ⟨s2, b1, b2⟩ := winNext_map
      (w := (WinWorld.start (winDemo [])).next! (.mapIf Options.new.write 7))
      (o := (Options.new.setOffset 70000).setLen (.exact 3000)) (file := 7)
      (m := ⟨73404784, 3000⟩) (by decide +kernel)
    refine .map r1 f2 b1 ?_ (winHeld_map (by decide +kernel))
    rw [← b2]
    exact .refl

/-- Non-vacuity of C120: a byte stored through the first map is seen through the second, which shows
the file. -/
example : ∃ w', winTwo.step winTab ⟨.w64, true⟩ (.set 0 70007 99) = .ok w' ∧
    winTwo.s.get ⟨73404784, 3000⟩ 7 = .ok (UInt8.ofNat (7 + 70007 % 251)) ∧
    w'.s.get ⟨73404784, 3000⟩ 7 = .ok 99 ∧ w'.s.bytes.file 7 70007 = 99 := by
  have st := WinWorld.next!_eq (w := winTwo) (op := .set 0 70007 99) (by decide +kernel)
  have h := C120_written (winDemo_wf []) (winDemo_laid []) winTwo_maps.1 winTwo_maps.2 (by decide) (by decide) st
    (j' := 7) (by decide)
  have h' := (C120_stored (winDemo_wf []) (winDemo_laid []) winTwo_maps.1 (by decide) st).2.2.2 7 70007
  exact ⟨_, st, by decide +kernel, h, h'⟩

/-- Non-vacuity of C120: a store through the second map is a fault, and one behind the end of the first
a panic. -/
example : winTwo.step winTab ⟨.w64, true⟩ (.set 1 7 99) = .error .memory ∧
    winTwo.step winTab ⟨.w64, true⟩ (.set 0 100000 99) = .error .panic :=
  ⟨(C120_store (winDemo_wf []) (winDemo_laid []) winTwo_maps.2 (by decide) 7 99).2.1 (by decide)
    (.inl (by decide)),
   (C120_store (winDemo_wf []) (winDemo_laid []) winTwo_maps.1 (by decide) 100000 99).1 (by decide)⟩

/-- A program that maps the demo file copy-on-write, -/
def winCopy1 : WinWorld := (WinWorld.start (winDemo [])).next! (.mapIf Options.new.copy 7)
/-- sets byte 5 of the map to 99, -/
def winCopy2 : WinWorld := winCopy1.next! (.set 0 5 99)
/-- and then someone else fills the file with 55. -/
def winCopy3 : WinWorld := winCopy2.next! (.files winCopy2.s.files (fun _ _ => 55))

/-- Non-vacuity: one byte behind the end of a map of 100 000 bytes. -/
example : winCopy3.s.get ⟨69206016, 100000⟩ 100000 = .error .panic ∧ winCopy3.s.get ⟨69206016, 100000⟩ 99999 ≠ .error .panic :=
  ⟨(C120_bounds _ _ _ 0).1.mpr (Nat.le_refl _), fun h => absurd ((C120_bounds _ _ _ 0).1.mp h) (by decide)⟩

/-- Non-vacuity of C121: in this program the map shows its own bytes 5 and 6, and the file's byte
5000. -/
example : winCopy3.s.get ⟨69206016, 100000⟩ 5 = .ok 99 ∧ winCopy3.s.get ⟨69206016, 100000⟩ 6 = .ok 13 ∧
    winCopy2.s.bytes.file 7 5 = 12 ∧ winCopy3.s.get ⟨69206016, 100000⟩ 5000 = .ok 55 := by
  have f1 : Fits ⟨.w64, true⟩ Options.new.copy := ⟨trivial, trivial, by decide⟩
  obtain ⟨s1, a1, a2⟩ := winNext_map (w := WinWorld.start (winDemo [])) (o := Options.new.copy) (file := 7)
    (m := ⟨69206016, 100000⟩) (by decide +kernel)
  have t1 : WinOverlay winTab ⟨.w64, true⟩ 0 ⟨69206016, 100000⟩ 7 0 winCopy1 winCopy1 _ := .made
  have t2 := t1.write (idx := 5) (b := 99) (w2 := winCopy2) (WinWorld.next!_eq (by decide +kernel))
  have t3 := t2.other (op := .files winCopy2.s.files (fun _ _ => 55)) (w2 := winCopy3) trivial
    (WinWorld.next!_eq (by decide +kernel)) (winHeld_map (by decide +kernel)) (fun _ _ h => by cases h)
  have h := fun j => C121_copy (winDemo_wf []) (winDemo_laid []) .start f1 a1 rfl (j := j)
    (by rw [← a2]; exact t3)
  refine ⟨(h 5 (by decide)).1 99 (by decide +kernel), (h 6 (by decide)).1 13 (by decide +kernel),
    by decide +kernel, ?_⟩
  refine ((h 5000 (by decide)).2.1 (by decide +kernel) ?_).trans (by decide +kernel)
  rintro ⟨len, e, l⟩
  have : winCopy3.s.files 7 = some 100000 := by decide +kernel
  rw [show winCopy3.s.files 7 = some len from e] at this
  have hp : winCopy3.s.page = 4096 := by decide +kernel
  rw [show winCopy3.s.page = 4096 from hp] at l
  cases this
  revert l; decide

/-- A program that allocates 5000 bytes, -/
def winCell1 : WinWorld :=
  (WinWorld.start (winDemo [])).next! (.alloc (Options.new.write.setLen (.exact 5000)))
/-- and sets byte 4500 to 7. -/
def winCell2 : WinWorld := winCell1.next! (.set 0 4500 7)

/-- Non-vacuity of C122. -/
example : winCell2.s.get ⟨68157440, 5000⟩ 4500 = .ok 7 ∧ winCell2.s.get ⟨68157440, 5000⟩ 4501 = .ok 0 := by
  have sane : WinAllocFits ⟨.w64, true⟩ (WinWorld.start (winDemo [])).s.gran
      ((Options.new.write.setLen (.exact 5000)).offset % (WinWorld.start (winDemo [])).s.page)
      (Options.new.write.setLen (.exact 5000)).len := by
    show (0 + 5000 : Nat) < _; decide
  have hs : (WinWorld.start (winDemo [])).step winTab ⟨.w64, true⟩
    (.alloc (Options.new.write.setLen (.exact 5000))) = .ok winCell1 := WinWorld.next!_eq (by decide +kernel)
  have hm : winCell1.held 0 = some (.map ⟨68157440, 5000⟩) := winHeld_map (by decide +kernel)
  simp only [WinWorld.step, bind, Except.bind, pure, Except.pure] at hs
  cases hx : (WinWorld.start (winDemo [])).s.alloc ⟨.w64, true⟩ (Options.new.write.setLen (.exact 5000)) with
  | error e => rw [hx] at hs; cases hs
  | ok x =>
    obtain ⟨s1, r⟩ := x
    rw [hx] at hs
    cases r with
    | error e => injection hs with hs; rw [← hs] at hm; cases hm
    | ok m =>
      injection hs with hs
      have hm' : m = ⟨68157440, 5000⟩ := by
        have h0 : ((WinWorld.start (winDemo [])).put s1 (.map m)).held 0 = some (.map m) := by
          simp only [WinWorld.put, WinWorld.start, if_true]
        rw [hs] at h0
        exact WinHandle.map.inj (Option.some.inj (h0.symm.trans hm))
      subst hm'
      have t1 : WinCells winTab ⟨.w64, true⟩ 0 ⟨68157440, 5000⟩ winCell1 winCell1 _ := .made
      have t2 := t1.write (idx := 4500) (b := 7) (w2 := winCell2) (WinWorld.next!_eq (by decide +kernel))
      have h := fun j => C122_alloc (winDemo_wf []) (winDemo_laid []) .start sane hx (j := j) (w := winCell2)
        (c := fun j => if j = 4500 then 7 else 0) (by rw [hs]; exact t2)
      exact ⟨h 4500 (by decide), h 4501 (by decide)⟩

/-- A program that maps the demo file for reading, -/
def winShort1 : WinWorld := (WinWorld.start (winDemo [])).next! (.mapIf Options.new 7)
/-- and maps it once more, asking to resize the file to 100 bytes (see `shortened`). -/
def winShort2 : WinWorld := winShort1.next! (.mapIf (Options.new.setResize (.exact 100)) 7)

/-- Non-vacuity of C123: the program of `C98_false`, in which reading the first map is a fault, on
Windows: the file is not shortened, and the map can be read. -/
example : winShort2.s.files 7 = some 100000 ∧ ∃ b, winShort2.s.get ⟨69206016, 100000⟩ 99999 = .ok b := by
  have f1 : Fits ⟨.w64, true⟩ Options.new := ⟨trivial, trivial, by decide⟩
  have f2 : Fits ⟨.w64, true⟩ (Options.new.setResize (.exact 100)) :=
    ⟨show (100 : Nat) < _ by decide, trivial, by decide⟩
  obtain ⟨s1, a1, a2⟩ := winNext_map (w := WinWorld.start (winDemo [])) (o := Options.new) (file := 7)
    (m := ⟨69206016, 100000⟩) (by decide +kernel)
  have t : WinSpared winTab ⟨.w64, true⟩ 7 (0 + 100000) winShort1 winShort2 :=
    .step (op := .mapIf (Options.new.setResize (.exact 100)) 7) .refl f2
      (WinWorld.next!_eq (by decide +kernel)) (fun _ _ h => by cases h)
  have h := C123_read (winDemo_wf []) (winDemo_laid []) .start f1 a1 (w := winShort2) (by rw [← a2]; exact t)
    (winHeld_map (by decide +kernel))
  exact ⟨by decide +kernel, h.2 99999 (by decide)⟩

/-- The program in which someone else shortens the file, -/
def winShort3 : WinWorld := winShort1.next! (.files (fun f => if f = 7 then some 100 else none) winShort1.s.bytes.file)

/-- C123 needs its condition: then reading the map is a fault. -/
example : winShort3.s.get ⟨69206016, 100000⟩ 99999 = .error .memory := by decide +kernel

/-- Non-vacuity of C124: a file resized from 100000 to 200000 bytes keeps its bytes and goes on with
zeros. -/
example : winShort1.s.bytes.file 7 3 = 10 ∧
    ((WinWorld.start (winDemo [])).next! (.mapIf (Options.new.write.setResize (.exact 200000)) 7)).s.files 7 =
      some 200000 ∧
    ((WinWorld.start (winDemo [])).next! (.mapIf (Options.new.write.setResize (.exact 200000)) 7)).s.bytes.file 7 3
      = 10 ∧
    ((WinWorld.start (winDemo [])).next! (.mapIf (Options.new.write.setResize (.exact 200000)) 7)).s.bytes.file 7
      150000 = 0 := by
  have f : Fits ⟨.w64, true⟩ (Options.new.write.setResize (.exact 200000)) :=
    ⟨show (200000 : Nat) < _ by decide, trivial, by decide⟩
  obtain ⟨s1, a1, a2⟩ := winNext_map (w := WinWorld.start (winDemo []))
    (o := Options.new.write.setResize (.exact 200000)) (file := 7) (m := ⟨70254592, 200000⟩) (by decide +kernel)
  rw [a2]
  obtain ⟨-, ⟨n, hn, hl, hb⟩ | ⟨e, he, -⟩⟩ := C124_contents winTab (winDemo_wf []) f a1
  · cases hn
    exact ⟨by decide +kernel, hl, (hb 3 (by decide)).trans (by decide), (hb 150000 (by decide)).trans (by decide)⟩
  · cases he

end Vmap

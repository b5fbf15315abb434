import Verif.Props.MapRange
import Verif.Props.MapMake
import Verif.Spec.Builder
/-
Property theorems C41, C42, C43 and C76: writing through maps and converting them.
-/
namespace Vmap
open Kernel Spec

/-! ### C41 -/

/-- C41: a write at index `i` of a shared map of object `o` from byte `off` on changes byte
`off + i` of the object and no other byte of any object; every other shared map of the object
that covers the byte shows it, at the right index and nowhere else; maps of other objects are
unaffected; nothing but object contents changes. -/
theorem C41_shared_write {t : Target} {k : Kernel} (w : Wf t k) {m : MapMut} {o off mw prot}
    (hm : k.MapsAll m.ptr m.len o off true mw prot) (hr : prot.r = true) (hw : prot.w = true)
    {i : Nat} (hi : i < m.len) (b : Byte) :
    ∃ k', m.set k i b = .ok k' ∧ Wf t k' ∧ m.get k' i = .ok b ∧
      (∀ x, k'.data o x = if x = off + i then b else k.data o x) ∧
      (∀ o', o' ≠ o → k'.data o' = k.data o') ∧
      k'.pt = k.pt ∧ k'.size = k.size ∧ k'.disk = k.disk ∧ k'.fds = k.fds ∧ k'.names = k.names ∧
      (∀ (m2 : MapMut) off2 mw2 prot2, k.MapsAll m2.ptr m2.len o off2 true mw2 prot2 →
        prot2.r = true → ∀ j, j < m2.len →
        m2.get k' j = if off2 + j = off + i then .ok b else m2.get k j) ∧
      (∀ (m2 : MapMut) o2 off2 sh2 mw2 prot2, o2 ≠ o → k.MapsAll m2.ptr m2.len o2 off2 sh2 mw2 prot2 →
        ∀ j, j < m2.len → m2.get k' j = m2.get k j) := by
  obtain ⟨k', e, s⟩ := store_maps w hm hr hw hi b
  obtain ⟨s1, s2, s3, s4⟩ := s.shared rfl
  have hd : ∀ x, k'.data o x = if x = off + i then b else k.data o x := by
    intro x
    rw [s4 x]
    by_cases hx : x = off + i
    · subst hx; simp
    · rw [if_neg (by simp only [List.length_singleton]; omega), if_neg hx]
  refine ⟨k', by rw [MapMut.set, if_pos hi]; exact e, s.wf, ?_, hd, s3, s1, s.fx.size, s.fx.disk,
    s.fx.fds, s.fx.names, ?_, ?_⟩
  · rw [MapMut.get, if_pos hi, s.load i hi, if_pos (by simp only [List.length_singleton]; omega),
      Nat.sub_self]; rfl
  · intro m2 off2 mw2 prot2 h2 hr2 j hj
    rw [MapMut.get, if_pos hj, MapMut.get, if_pos hj, (h2 j hj).load_shared w hr2,
      (s.fx.maps (h2 j hj)).load_shared s.wf hr2, hd]
    split <;> rfl
  · intro m2 o2 off2 sh2 mw2 prot2 hne h2 j hj
    rw [MapMut.get, if_pos hj, MapMut.get, if_pos hj]
    refine load_eq s.fx.page s.fx.size (by rw [s1]) ?_
    intro e' he'
    obtain ⟨e2, a1, a2, -⟩ := h2 j hj
    rw [he'] at a1
    injection a1 with a1
    subst a1
    unfold cell
    cases hc : e'.copy with
    | none => dsimp only; rw [a2, s3 o2 hne]
    | some c =>
      dsimp only
      have hne' : c ≠ o := by
        obtain ⟨em, b1, b2, -⟩ := hm i hi
        have := ((w.excl _ e' c he' hc).1 _ em b1).1
        rw [b2] at this
        exact fun h => this h.symm
      rw [s3 c hne']

/-- C41: a write at index `i` of a private map changes that byte of that map and nothing else: no
other address of memory, no file and no descriptor's object. -/
theorem C41_copy_write {t : Target} {k : Kernel} (w : Wf t k) {m : MapMut} {o off mw prot}
    (hm : k.MapsAll m.ptr m.len o off false mw prot) (hr : prot.r = true) (hw : prot.w = true)
    {i : Nat} (hi : i < m.len) (b : Byte) :
    ∃ k', m.set k i b = .ok k' ∧ Wf t k' ∧ m.get k' i = .ok b ∧
      (∀ a, a ≠ m.ptr + i → k'.load a = k.load a) ∧
      (∀ d f, k.fds d = some f → k'.data f.obj = k.data f.obj) ∧
      (∀ nm ob, k.names nm = some ob → k'.data ob = k.data ob) ∧
      k'.size = k.size ∧ k'.disk = k.disk ∧ k'.fds = k.fds ∧ k'.names = k.names := by
  obtain ⟨k', e, s⟩ := store_maps w hm hr hw hi b
  obtain ⟨s1, s2⟩ := s.priv rfl
  refine ⟨k', by rw [MapMut.set, if_pos hi]; exact e, s.wf, ?_, ?_, ?_, ?_, s.fx.size, s.fx.disk,
    s.fx.fds, s.fx.names⟩
  · rw [MapMut.get, if_pos hi, s.load i hi, if_pos (by simp only [List.length_singleton]; omega),
      Nat.sub_self]; rfl
  · intro a ha
    exact s1 a (by simp only [List.length_singleton]; omega)
  · intro d f hf
    refine (s2 f.obj (w.fds d f hf).1 ?_).1
    rintro ⟨q, e', h1, h2⟩
    exact (w.excl q e' _ h1 h2).2.1 d f hf rfl
  · intro nm ob hn
    refine (s2 ob (w.names nm ob hn) ?_).1
    rintro ⟨q, e', h1, h2⟩
    exact (w.excl q e' _ h1 h2).2.2 nm ob hn rfl

/-- C41: maps created with write access are shared, readable and writable; maps created with copy
access are private, readable and writable.  (With `C41_shared_write` and `C41_copy_write` this
covers every write to such a map in every later state in which the map is in place.) -/
theorem C41_created (tab : SysTable) {t : Target} {k k' : Kernel} (w : Wf t k) {o : Options}
    (hfit : Fits t o) {fd : Nat} {m : MapMut}
    (h : o.mapIf tab t k fd = .ok (k', .ok (some m))) :
    Wf t k' ∧ ∃ f mw, k'.fds fd = some f ∧
      (o.protect = .readWrite → k'.MapsAll m.ptr m.len f.obj o.offset true mw ⟨true, true, false⟩) ∧
      (o.protect = .readCopy → k'.MapsAll m.ptr m.len f.obj o.offset false mw ⟨true, true, false⟩) := by
  obtain ⟨k1', r, h1, g⟩ := mapIf_keeps tab w hfit (fd := fd)
  rw [h] at h1
  obtain ⟨rfl, rfl⟩ := ok_pair h1
  obtain ⟨f, p, n, hf, -, -, -, c⟩ := g.made m rfl
  refine ⟨g.wf, f, !sharedOf o.protect || f.canWrite, by rw [g.fds]; exact hf, ?_, ?_⟩
  · intro hp
    have := c.maps
    rw [hp] at this ⊢
    exact this
  · intro hp
    have := c.maps
    rw [hp] at this ⊢
    exact this

/-- Non-vacuity: shared and private maps of the demo file, and a second shared map in place. -/
example (t : Target) :
    (demoMap true true ⟨true, true, false⟩).MapsAll 4096005 8000 0 5 true true ⟨true, true, false⟩ ∧
    (demoMap false true ⟨true, true, false⟩).MapsAll 4096005 8000 0 5 false true ⟨true, true, false⟩ ∧
    Wf t (demoMap true true ⟨true, true, false⟩) :=
  ⟨demoMap_maps _ _ _, demoMap_maps _ _ _, demoMap_wf _ _ _⟩

example (tab : SysTable) : ∃ k' m, (Options.newMut.setOffset 5000).mapIf tab ⟨.w64, true⟩ (demo 0) 3 =
    .ok (k', .ok (some m)) ∧ m.len = 5000 := ⟨_, _, rfl, rfl⟩

/-! ### C42 and C43 -/

/-- What `protect(.., ReadWrite)` of a whole map does. -/
theorem protect_whole {t : Target} {k : Kernel} (w : Wf t k) {m : MapMut} {p n : Nat}
    (g : Live t k m p n) :
    ∃ k' r, (Size.page k).bounds t m.ptr m.len = .ok (p * k.page, n * k.page) ∧
      Unix.protect k (p * k.page) (n * k.page) .readWrite = (k', r) ∧
      Wf t k' ∧ SameButPages k k' ∧ Live t k' m p n ∧
      (∀ a, ¬ (p * k.page ≤ a ∧ a < (p + n) * k.page) → k'.load a = k.load a) ∧
      ((r = .ok () ∧ (∀ q, p ≤ q → q < p + n → ∃ e, k.pt q = some e ∧ e.mayWrite = true ∧
          k'.pt q = some { e with prot := ⟨true, true, false⟩ })) ∨
       (∃ err, r = .error err ∧ err.operation = .protect ∧ k'.pt = k.pt)) := by
  have hpp := w.page_pos
  obtain ⟨k', r, h1, h2, h3, h4, h5, h6⟩ := protect_fx k hpp p n
  refine ⟨k', r, whole_bounds w g.pages, h1, h3.wf w,
    ⟨h3.page, h3.data, h3.size, h4, h3.fds, h3.names, h3.fresh, h3.nextFd, h3.oracle⟩,
    g.onlyRange h3, ?_, ?_⟩
  · intro a ha
    apply h3.load_outside
    rintro ⟨x, y⟩
    apply ha
    rw [← Nat.le_div_iff_mul_le hpp, ← Nat.div_lt_iff_lt_mul hpp]
    exact ⟨x, y⟩
  · rcases h2 with ⟨-, hr⟩ | ⟨e, err, -, hr, ho, -⟩
    · refine .inl ⟨hr, ?_⟩
      obtain ⟨a, b⟩ := h6 hr
      intro q c d
      obtain ⟨e, e1, e2⟩ := b q c d
      refine ⟨e, e1, e2, ?_⟩
      rw [a]; unfold updPt
      rw [if_pos ⟨c, d⟩, e1]; rfl
    · exact .inr ⟨err, hr, ho, h5 (by rw [hr]; intro h; cases h)⟩

/-- A map whose pages were made read-write. -/
theorem mapsAll_protected {t : Target} {k k' : Kernel} (w : Wf t k) {m : MapMut} {p n : Nat}
    (g : Live t k m p n) (s : SameButPages k k')
    (h : ∀ q, p ≤ q → q < p + n → ∃ e, k.pt q = some e ∧ e.mayWrite = true ∧
      k'.pt q = some { e with prot := ⟨true, true, false⟩ })
    {o off sh mw prot} (hm : k.MapsAll m.ptr m.len o off sh mw prot) :
    k'.MapsAll m.ptr m.len o off sh mw ⟨true, true, false⟩ ∧
      (prot.r = true → ∀ i, i < m.len → m.get k' i = m.get k i) := by
  have hpp := w.page_pos
  have key : ∀ i, i < m.len → ∃ e, k.pt ((m.ptr + i) / k.page) = some e ∧
      k'.pt ((m.ptr + i) / k.page) = some { e with prot := ⟨true, true, false⟩ } := by
    intro i hi
    obtain ⟨s1, s2, -⟩ := g.pages.sub hpp (off := i) (l := 1) (by omega)
    have hpg : 1 ≤ k.pages (1 + (m.ptr + i) % k.page) := by
      rw [pages_eq, Nat.le_div_iff_mul_le hpp]; omega
    obtain ⟨e, h1, -, h2⟩ := h _ s1 (by omega)
    exact ⟨e, h1, h2⟩
  refine ⟨?_, ?_⟩
  · intro i hi
    obtain ⟨e, h1, h2⟩ := key i hi
    obtain ⟨e', a1, a2, a3, a4, a5, a6, a7⟩ := hm i hi
    rw [h1] at a1
    injection a1 with a1
    subst a1
    refine ⟨{ e with prot := ⟨true, true, false⟩ }, by rw [s.page]; exact h2, a2, by rw [s.page]; exact a3, a4, a5, rfl, ?_⟩
    simpa [backed, s.page, s.size] using a7
  · intro hr i hi
    obtain ⟨e, h1, h2⟩ := key i hi
    obtain ⟨e', a1, a2, a3, a4, a5, a6, a7⟩ := hm i hi
    rw [h1] at a1
    injection a1 with a1
    subst a1
    rw [MapMut.get, if_pos hi, MapMut.get, if_pos hi]
    have hb : k'.backed { e with prot := ⟨true, true, false⟩ } = true := by
      simpa [backed, s.page, s.size] using a7
    simp only [Kernel.load, s.page, h1, h2]
    rw [if_pos (by simp [hb]), if_pos (by simp [a6, hr, a7])]
    simp only [cell, s.page, s.data]

/-- C42: `into_map_mut` of a map in place never panics.  On success the result has the same pointer
and length, the same bytes, and every byte can be written.  On failure the error's operation is
`Protect`, the same map is handed back and is still in place with the same bytes.  Either way
no byte of memory outside the map's pages and no object changes. -/
theorem C42_into_map_mut {t : Target} {k : Kernel} (w : Wf t k) {m : Map} {p n : Nat}
    (g : Live t k m.inner p n) {o off sh mw prot}
    (hm : k.MapsAll m.inner.ptr m.inner.len o off sh mw prot) (hr : prot.r = true) :
    ∃ k' r, m.intoMapMut t k = .ok (k', r) ∧ Wf t k' ∧ SameButPages k k' ∧
      Live t k' m.inner p n ∧
      (∀ a, ¬ (p * k.page ≤ a ∧ a < (p + n) * k.page) → k'.load a = k.load a) ∧
      (∀ i, i < m.inner.len → m.inner.get k' i = m.inner.get k i) ∧
      ((∃ m', r = .ok m' ∧ m'.ptr = m.inner.ptr ∧ m'.len = m.inner.len ∧
          k'.MapsAll m'.ptr m'.len o off sh mw ⟨true, true, false⟩ ∧
          ∀ i b, i < m'.len → ∃ k2, m'.set k' i b = .ok k2 ∧ m'.get k2 i = .ok b) ∨
       (∃ err, r = .error (err, m) ∧ err.operation = .protect ∧ k'.pt = k.pt)) := by
  obtain ⟨k', r, hb, h1, w', s, g', hout, hc⟩ := protect_whole w g
  rcases hc with ⟨rfl, hc⟩ | ⟨err, rfl, ho, hpt⟩
  · obtain ⟨hm', hget⟩ := mapsAll_protected w g s hc hm
    refine ⟨k', .ok m.inner, ?_, w', s, g', hout, hget hr, .inl ⟨m.inner, rfl, rfl, rfl, hm', ?_⟩⟩
    · simp only [Map.intoMapMut, hb, bind, Except.bind, h1]; rfl
    · intro i b hi
      obtain ⟨k2, e2, s2⟩ := store_maps w' hm' rfl rfl hi b
      refine ⟨k2, by rw [MapMut.set, if_pos hi]; exact e2, ?_⟩
      rw [MapMut.get, if_pos hi, s2.load i hi, if_pos (by simp only [List.length_singleton]; omega),
        Nat.sub_self]; rfl
  · refine ⟨k', .error (err, m), ?_, w', s, g', hout, ?_, .inr ⟨err, rfl, ho, hpt⟩⟩
    · simp only [Map.intoMapMut, hb, bind, Except.bind, h1]; rfl
    · intro i hi
      rw [MapMut.get, if_pos hi, MapMut.get, if_pos hi]
      exact load_same_pt s.page s.size s.data hpt _

/-- C42: if the file was not opened for writing (so that its shared pages may not be made
writable), `into_map_mut` fails. -/
theorem C42_not_writable {t : Target} {k : Kernel} (w : Wf t k) {m : Map} {p n : Nat}
    (g : Live t k m.inner p n) {o off sh prot}
    (hm : k.MapsAll m.inner.ptr m.inner.len o off sh false prot) (hlen : 0 < m.inner.len) :
    ∃ k' err, m.intoMapMut t k = .ok (k', .error (err, m)) ∧ err.operation = .protect := by
  obtain ⟨k', r, hb, h1, w', s, g', hout, hc⟩ := protect_whole w g
  rcases hc with ⟨rfl, hc⟩ | ⟨err, rfl, ho, hpt⟩
  · exfalso
    obtain ⟨e, a1, -, -, -, a5, -⟩ := hm 0 hlen
    have hp : (m.inner.ptr + 0) / k.page = p := (g.pages.whole w.page_pos).1
    rw [hp] at a1
    obtain ⟨e', b1, b2, -⟩ := hc p (Nat.le_refl _) (by have := g.pages.n_pos; omega)
    rw [a1] at b1
    injection b1 with b1
    subst b1
    rw [a5] at b2
    cases b2
  · exact ⟨k', err, by simp only [Map.intoMapMut, hb, bind, Except.bind, h1]; rfl, ho⟩

/-- C42: maps of a file opened for reading only have pages that may not be made writable (so
`C42_not_writable` applies to them). -/
theorem C42_created (tab : SysTable) {t : Target} {k k' : Kernel} (w : Wf t k) {o : Options}
    (hfit : Fits t o) {fd : Nat} {m : MapMut} {f : Fd} (hf : k.fds fd = some f)
    (hro : f.canWrite = false) (hsh : o.protect = .readOnly)
    (h : o.mapIf tab t k fd = .ok (k', .ok (some m))) :
    Wf t k' ∧ k'.MapsAll m.ptr m.len f.obj o.offset true false ⟨true, false, false⟩ ∧
      ∃ p n, Live t k' m p n := by
  obtain ⟨k1', r, h1, g⟩ := mapIf_keeps tab w hfit (fd := fd)
  rw [h] at h1
  obtain ⟨rfl, rfl⟩ := ok_pair h1
  obtain ⟨f', p, n, hf', -, -, -, c⟩ := g.made m rfl
  rw [hf] at hf'
  injection hf' with hf'
  subst hf'
  refine ⟨g.wf, ?_, p, n, ⟨by rw [g.page]; exact c.pages, fun q a b => ?_⟩⟩
  · have := c.maps
    rw [hsh, hro] at this
    exact this
  · obtain ⟨e, he, -⟩ := c.mapped q a b
    exact ⟨e, he⟩

/-- C42: if every page may be made writable and the kernel does not fail, it succeeds. -/
theorem C42_succeeds {t : Target} {k : Kernel} (w : Wf t k) {m : Map} {p n : Nat}
    (g : Live t k m.inner p n)
    (hmw : ∀ q e, p ≤ q → q < p + n → k.pt q = some e → e.mayWrite = true)
    (hok : (k.oracle k.tick).ok = true) :
    ∃ k', m.intoMapMut t k = .ok (k', .ok m.inner) := by
  have hpp := w.page_pos
  obtain ⟨c1, c2, c3⟩ := call_pages hpp p n
  have h1 : ¬ (p * k.page % k.page != 0) = true := by simp
  have h2 : ¬ (!k.tock.rangeMapped (p * k.page / k.page) (k.pages (n * k.page))) = true := by
    rw [c1, c2]
    simp only [Bool.not_eq_true', Bool.not_eq_false]
    exact rangeMapped_iff.mpr (fun q a b => g.mapped q (by omega) (by omega))
  have h3 : ¬ (!k.tock.rangeMay (Unix.protectBits .readWrite) (p * k.page / k.page)
      (k.pages (n * k.page))) = true := by
    rw [c1, c2]
    simp only [Bool.not_eq_true', Bool.not_eq_false]
    exact rangeMay_iff.mpr (fun q e a b he _ => hmw q e a b he)
  have h4 : ¬ (!k.now.ok) = true := by
    have : k.now.ok = true := hok
    simp [this]
  have hp : ∃ k', Unix.protect k (p * k.page) (n * k.page) .readWrite = (k', .ok ()) := by
    simp only [Unix.protect, mprotect, mprotectCore]
    rw [if_neg (by exact h1), if_neg (by exact h2), if_neg (by exact h3), if_neg (by exact h4)]
    exact ⟨_, rfl⟩
  obtain ⟨k', hk⟩ := hp
  exact ⟨k', by simp only [Map.intoMapMut, whole_bounds w g.pages, bind, Except.bind, hk]; rfl⟩

/-- Non-vacuity of C42: a read-only map of the demo file in place, once opened for writing and once
not. -/
example (t : Target) :
    Live t (demoMap true false ⟨true, false, false⟩) ⟨4096000, 8192⟩ 1000 2 ∧
    Live t (demoMap true true ⟨true, false, false⟩) ⟨4096000, 8192⟩ 1000 2 ∧
    ((demoMap true true ⟨true, false, false⟩).oracle 0).ok = true ∧
    (demoMap true false ⟨true, false, false⟩).MapsAll 4096005 8000 0 5 true false ⟨true, false, false⟩ :=
  ⟨demoMap_live _ _ _ _, demoMap_live _ _ _ _, by decide, demoMap_maps _ _ _⟩

example (tab : SysTable) : ∃ k' m, Options.new.mapIf tab ⟨.w64, true⟩ (demo 0) 4 =
    .ok (k', .ok (some m)) ∧ ((demo 0).fds 4) = some ⟨0, true, false⟩ ∧ m.len = 10000 :=
  ⟨_, _, rfl, rfl, rfl⟩

/-- C43 in full: `into_map` keeps pointer, length and bytes and makes the pages read-only: no byte
can be written any more. -/
def C43_full : Prop :=
  ∀ (t : Target) (k k' : Kernel) (m : MapMut) (m' : Map) (p n : Nat), Wf t k → Live t k m p n →
    m.intoMap t k = .ok (k', .ok m') →
    m'.inner.ptr = m.ptr ∧ m'.inner.len = m.len ∧
    ∀ i b, i < m.len → k'.store (m.ptr + i) b = .error .memory

/-- C43 except for the pages becoming read-only (which is false, see `C43_false`): `into_map` of a
map in place never panics; on success pointer, length and bytes are the same; on failure the
error's operation is `Protect` and the same map is handed back; nothing else changes. -/
theorem C43_partial {t : Target} {k : Kernel} (w : Wf t k) {m : MapMut} {p n : Nat}
    (g : Live t k m p n) {o off sh mw prot}
    (hm : k.MapsAll m.ptr m.len o off sh mw prot) (hr : prot.r = true) :
    ∃ k' r, m.intoMap t k = .ok (k', r) ∧ Wf t k' ∧ SameButPages k k' ∧ Live t k' m p n ∧
      (∀ a, ¬ (p * k.page ≤ a ∧ a < (p + n) * k.page) → k'.load a = k.load a) ∧
      (∀ i, i < m.len → m.get k' i = m.get k i) ∧
      ((∃ m', r = .ok m' ∧ m'.inner.ptr = m.ptr ∧ m'.inner.len = m.len) ∨
       (∃ err, r = .error (err, m) ∧ err.operation = .protect ∧ k'.pt = k.pt)) := by
  obtain ⟨k', r, hb, h1, w', s, g', hout, hc⟩ := protect_whole w g
  rcases hc with ⟨rfl, hc⟩ | ⟨err, rfl, ho, hpt⟩
  · obtain ⟨hm', hget⟩ := mapsAll_protected w g s hc hm
    refine ⟨k', .ok ⟨m⟩, ?_, w', s, g', hout, hget hr, .inl ⟨⟨m⟩, rfl, rfl, rfl⟩⟩
    simp only [MapMut.intoMap, hb, bind, Except.bind, h1]; rfl
  · refine ⟨k', .error (err, m), ?_, w', s, g', hout, ?_, .inr ⟨err, rfl, ho, hpt⟩⟩
    · simp only [MapMut.intoMap, hb, bind, Except.bind, h1]; rfl
    · intro i hi
      rw [MapMut.get, if_pos hi, MapMut.get, if_pos hi]
      exact load_same_pt s.page s.size s.data hpt _

/-- After a successful `into_map` every byte of the map can still be written: the pages are
read-write, whatever they were before. -/
theorem C43_stays_writable {t : Target} {k k' : Kernel} (w : Wf t k) {m : MapMut} {m' : Map}
    {p n : Nat} (g : Live t k m p n) {o off sh mw prot}
    (hm : k.MapsAll m.ptr m.len o off sh mw prot) (h : m.intoMap t k = .ok (k', .ok m')) :
    ∀ i b, i < m.len → ∃ k2, k'.store (m.ptr + i) b = .ok k2 := by
  obtain ⟨k1, r, hb, h1, w', s, g', hout, hc⟩ := protect_whole w g
  simp only [MapMut.intoMap, hb, bind, Except.bind, h1] at h
  rcases hc with ⟨rfl, hc⟩ | ⟨err, rfl, ho, hpt⟩
  · obtain ⟨rfl, -⟩ := ok_pair h
    obtain ⟨hm', -⟩ := mapsAll_protected w g s hc hm
    intro i b hi
    obtain ⟨k2, e2, -⟩ := store_maps w' hm' rfl rfl hi b
    exact ⟨k2, e2⟩
  · obtain ⟨-, hx⟩ := ok_pair h
    cases hx

/-- C43 is false: on the demo kernel `into_map` succeeds and byte 5 can still be written. -/
theorem C43_false : ¬ C43_full := by
  intro h
  have ⟨k', h1⟩ : ∃ k', MapMut.intoMap ⟨.w64, true⟩ (demoMap true true ⟨true, true, false⟩)
      ⟨4096005, 8000⟩ = .ok (k', .ok ⟨⟨4096005, 8000⟩⟩) := by
    exact ⟨_, rfl⟩
  have g : Live ⟨.w64, true⟩ (demoMap true true ⟨true, true, false⟩) ⟨4096005, 8000⟩ 1000 2 := by
    refine ⟨?_, (demoMap_live ⟨.w64, true⟩ true true ⟨true, true, false⟩).mapped⟩
    have := (⟨.w64, true⟩ : Target).lim_cases
    show Pages ⟨.w64, true⟩ 4096 4096005 8000 1000 2
    constructor <;> omega
  obtain ⟨-, -, hs⟩ := h _ _ _ _ _ _ _ (demoMap_wf _ _ _) g h1
  obtain ⟨k2, hk⟩ := C43_stays_writable (demoMap_wf _ _ _) g (demoMap_maps _ _ _) h1 5 0 (by decide)
  rw [hs 5 0 (by decide)] at hk
  cases hk

/-! ### C76 -/

/-- C76 in full: a `MapMut` made by the builder from a file can be written. -/
def C76_full : Prop :=
  ∀ (tab : SysTable) (t : Target) (k k' : Kernel) (l : List Setting) (fd : Nat) (m : MapMut),
    Wf t k → Fits t (Options.new.build l) →
    (Options.new.build l).mapIf tab t k fd = .ok (k', .ok (some m)) →
    ∀ i b, i < m.len → ∃ k2, m.set k' i b = .ok k2

/-- C76 for options on which write or copy access was chosen (missing: options on which neither
was, for which it is false). -/
theorem C76_partial (tab : SysTable) {t : Target} {k k' : Kernel} {o : Options} {fd : Nat}
    {m : MapMut} (w : Wf t k) (hfit : Fits t o)
    (hp : o.protect = .readWrite ∨ o.protect = .readCopy)
    (h : o.mapIf tab t k fd = .ok (k', .ok (some m))) :
    ∀ i b, i < m.len → ∃ k2, m.set k' i b = .ok k2 ∧ m.get k2 i = .ok b := by
  intro i b hi
  obtain ⟨w', f, mw, -, h1, h2⟩ := C41_created tab w hfit h
  rcases hp with hp | hp
  · obtain ⟨k2, a, -, c, -⟩ := C41_shared_write w' (h1 hp) rfl rfl hi b
    exact ⟨k2, a, c⟩
  · obtain ⟨k2, a, -, c, -⟩ := C41_copy_write w' (h2 hp) rfl rfl hi b
    exact ⟨k2, a, c⟩

/-- C76 is false: `Options::<MapMut>::new()` maps read-only pages; the first write through the
`MapMut` it returns is a memory fault. -/
theorem C76_false (tab : SysTable) : ¬ C76_full := by
  intro h
  have ⟨k', m, h1, h2, h3⟩ : ∃ k' m, (Options.new.build []).mapIf tab ⟨.w64, true⟩ (demo 0) 3 =
      .ok (k', .ok (some m)) ∧ 0 < m.len ∧ m.set k' 0 1 = .error .memory :=
    ⟨_, _, rfl, by decide, rfl⟩
  obtain ⟨k2, hk⟩ := h tab _ _ _ [] 3 m (demo_wf 0) ⟨trivial, trivial, by decide⟩ h1 0 1 h2
  rw [h3] at hk
  cases hk

example (tab : SysTable) : ∃ k' m, (Options.new.build [.write]).mapIf tab ⟨.w64, true⟩ (demo 0) 3 =
      .ok (k', .ok (some m)) ∧ (Options.new.build [.write]).protect = .readWrite ∧ m.len = 10000 :=
  ⟨_, _, rfl, rfl, rfl⟩

end Vmap

import Verif.Proofs.MapOps
import Verif.Spec.Demo
/-
Property theorems C33, C37–C40: what a new map shows, allocations, and dropping.
-/
namespace Vmap
open Kernel Spec

/-! ### C33 -/

/-- A created map shows the bytes of its object. -/
theorem Kernel.Created.load {t : Target} {k k' : Kernel} {ptr len o off sh mw prot p n}
    (w : Wf t k) (hp : k'.page = k.page) (c : Created t k k' ptr len o off sh mw prot p n)
    (hr : prot.r = true) {i : Nat} (hi : i < len) :
    k'.load (ptr + i) = .ok (k'.data o (off + i)) := by
  have hm := c.maps i hi
  have hpp := w.page_pos
  obtain ⟨h1, h2, -⟩ := c.pages.sub hpp (off := i) (l := 1) (by omega)
  have hpg : 1 ≤ k.pages (1 + (ptr + i) % k.page) := by
    rw [pages_eq, Nat.le_div_iff_mul_le hpp]
    omega
  obtain ⟨e, he, hc, -⟩ := c.mapped ((ptr + i) / k.page) h1 (by omega)
  rw [← hp] at he
  exact Maps.load_fresh he hc hm hr

theorem protOf_r (p : Protect) : (protOf p).r = true := by cases p <;> rfl

/-- C33: byte `i` of a new file map is byte `offset + i` of the file, for every `i` below the
map's length; in particular the map ends inside the file. -/
theorem C33_file_bytes (tab : SysTable) {t : Target} {k k' : Kernel} (w : Wf t k) {o : Options}
    (hfit : Fits t o) {fd : Nat} {m : MapMut}
    (h : o.mapIf tab t k fd = .ok (k', .ok (some m))) :
    ∃ f bs, k'.fds fd = some f ∧ o.offset + m.len ≤ k'.size f.obj ∧
      m.bytes k' = .ok bs ∧ (Map.mk m).bytes k' = .ok bs ∧ bs.length = m.len ∧
      ∀ i, i < m.len → bs[i]? = some (k'.data f.obj (o.offset + i)) := by
  obtain ⟨k1, r, h1, g⟩ := mapIf_keeps tab w hfit (fd := fd)
  rw [h] at h1
  injection h1 with h1
  injection h1 with ha hb
  subst ha
  subst hb
  obtain ⟨f, p, n, hf, -, -, hs, c⟩ := g.made m rfl
  have hl : ∀ i, i < m.len → k'.load (m.ptr + i) = .ok (k'.data f.obj (o.offset + i)) :=
    fun i hi => c.load w g.page (protOf_r _) hi
  obtain ⟨bs, b1, b2, b3⟩ := loadN_maps (k := k') m.len m.ptr (fun i hi => ⟨_, hl i hi⟩)
  refine ⟨f, bs, by rw [g.fds]; exact hf, hs, b1, b1, b2, ?_⟩
  intro i hi
  have := b3 i hi
  rw [hl i hi] at this
  injection this with this
  rw [this, List.getElem?_eq_getElem (by omega)]
  simp [List.getD_eq_getElem?_getD, List.getElem?_eq_getElem (show i < bs.length by omega)]

/-- C33: a shared file map keeps showing the file: whatever happens in between, in any later
state in which the map is still in place its bytes are the file's current bytes. -/
theorem C33_stays {t : Target} {k : Kernel} (w : Wf t k) {m : MapMut} {o off mw prot}
    (hm : k.MapsAll m.ptr m.len o off true mw prot) (hr : prot.r = true) {i : Nat}
    (hi : i < m.len) : m.get k i = .ok (k.data o (off + i)) := by
  rw [MapMut.get, if_pos hi]
  exact (hm i hi).load_shared w hr

/-- Non-vacuity: mapping 3000 bytes of the demo file from the unaligned offset 5000 succeeds;
the map's byte 7 is the file's byte 5007. -/
example (tab : SysTable) : Wf ⟨.w64, true⟩ (demo 0) ∧
    ∃ k' m, ((Options.new.setOffset 5000).setLen (.exact 3000)).mapIf tab ⟨.w64, true⟩ (demo 0) 3 =
      .ok (k', .ok (some m)) ∧ m.len = 3000 ∧ m.ptr % 4096 = 904 ∧
      m.get k' 7 = .ok (UInt8.ofNat (5007 % 251)) :=
  ⟨demo_wf 0, _, _, rfl, rfl, rfl, rfl⟩

/-! ### C37 -/

/-- What `alloc` promises: the length, the place within the page, zeroed bytes, and (if the
access allows writing) bytes that can be written. -/
structure Spec.Allocated (k' : Kernel) (o : Options) (m : MapMut) : Prop where
  len : AllocLen k'.page (o.offset % k'.page) o.len m.len
  place : m.ptr % k'.page = o.offset % k'.page
  zero : ∀ i, i < m.len → m.get k' i = .ok 0
  writable : o.protect = .readWrite ∨ o.protect = .readCopy → ∀ i b, i < m.len →
    ∃ k2, m.set k' i b = .ok k2 ∧ m.get k2 i = .ok b ∧
      ∀ j, j < m.len → j ≠ i → m.get k2 j = m.get k' j

/-- C37 in full. -/
def C37_full : Prop :=
  ∀ (t : Target) (k k' : Kernel) (o : Options) (m : MapMut), Wf t k → Fits t o →
    o.alloc t k = .ok (k', .ok m) → Allocated k' o m

theorem ok_pair {α β γ : Type} {k k' : α} {a b : β} (h : (Except.ok (k, a) : Except γ (α × β)) = .ok (k', b)) :
    k = k' ∧ a = b := by
  injection h with h; injection h with h1 h2; exact ⟨h1, h2⟩

/-- C37, provided offset and length together do not exceed the address space (missing from the
full claim: the remaining sizes, for which it is false in release builds, see `C37_false`, and
`alloc` panics in debug builds, see `C37_debug`). -/
theorem C37_alloc_partial {t : Target} {k k' : Kernel} (w : Wf t k) {o : Options} {m : MapMut}
    (hf : AllocFits t k.page (o.offset % k.page) o.len)
    (h : o.alloc t k = .ok (k', .ok m)) :
    Wf t k' ∧ k'.page = k.page ∧ Allocated k' o m ∧ m.bytes k' = .ok (List.replicate m.len 0) ∧
      k'.fds = k.fds ∧ k'.names = k.names ∧ k'.disk = k.disk ∧
      (∀ ob, ob < k.fresh → k'.data ob = k.data ob ∧ k'.size ob = k.size ob) ∧
      (∀ q, k.pt q ≠ none → k'.pt q = k.pt q) := by
  obtain ⟨len, hl, hc, -⟩ := alloc_cases w o hf
  rcases hc with ⟨e, he⟩ | ⟨p, k1, hne, hp0, -, -, hk1, w1, c, he⟩
  · rw [h] at he; obtain ⟨-, hx⟩ := ok_pair he; cases hx
  · rw [h] at he
    obtain ⟨rfl, hx⟩ := ok_pair he
    injection hx with hx
    subst hx
    have hpp := w.page_pos
    have hpg : k'.page = k.page := by rw [hk1]; rfl
    have hz : ∀ i, i < len → k'.load (p * k.page + o.offset % k.page + i) = .ok 0 := by
      intro i hi
      rw [c.load w hpg (protOf_r _) hi, hk1]
      simp [anonState]
    refine ⟨w1, hpg, ⟨?_, ?_, ?_, ?_⟩, ?_, ?_, ?_, ?_, ?_, ?_⟩
    · rw [hpg]; exact hl
    · rw [hpg]
      simp only
      rw [Nat.mul_comm, Nat.mul_add_mod, Nat.mod_mod]
    · intro i hi
      rw [MapMut.get, if_pos hi]; exact hz i hi
    · intro hw i b hi
      have hw' : (protOf o.protect).w = true := by rcases hw with hw | hw <;> rw [hw] <;> rfl
      obtain ⟨k2, e2, s⟩ := store_maps w1 c.maps (protOf_r _) hw' hi b
      refine ⟨k2, by rw [MapMut.set, if_pos hi]; exact e2, ?_, ?_⟩
      · rw [MapMut.get, if_pos hi]
        dsimp only at hi ⊢
        rw [s.load i hi, if_pos (by simp only [List.length_singleton]; omega), Nat.sub_self]; rfl
      · intro j hj hji
        rw [MapMut.get, if_pos hj, MapMut.get, if_pos hj]
        dsimp only at hj ⊢
        rw [s.load j hj, if_neg (by simp only [List.length_singleton]; omega)]
    · have := loadN_eq (k := k') (List.replicate len 0) (p * k.page + o.offset % k.page)
        (fun i hi => by
          rw [List.length_replicate] at hi
          rw [hz i hi]
          simp [List.getD_eq_getElem?_getD, hi])
      rw [List.length_replicate] at this
      exact this
    · rw [hk1]; rfl
    · rw [hk1]; rfl
    · rw [hk1]; rfl
    · intro ob hob
      rw [hk1]
      simp only [anonState]
      rw [if_neg (by omega)]
      refine ⟨?_, rfl⟩
      funext i
      rw [if_neg (by omega)]
    · intro q hq
      apply c.others
      rintro ⟨a, b⟩
      exact hq (c.free q a b)

/-- C37: `MapMut::new(hint)` gives a zeroed writable map of at least `hint` bytes filling whole
pages and starting at a page boundary. -/
theorem C37_new_partial {t : Target} {k k' : Kernel} (w : Wf t k) {hint : Nat} {m : MapMut}
    (hf : hint + k.page < t.lim) (h : MapMut.new t k hint = .ok (k', .ok m)) :
    Wf t k' ∧ hint ≤ m.len ∧ k.page ∣ m.len ∧ m.len < hint + k.page ∧ k.page ∣ m.ptr ∧
      (∀ i, i < m.len → m.get k' i = .ok 0) ∧
      (∀ i b, i < m.len → ∃ k2, m.set k' i b = .ok k2 ∧ m.get k2 i = .ok b) := by
  have ho : (Options.newMut.setLen (.min hint)).offset = 0 := rfl
  have hl : (Options.newMut.setLen (.min hint)).len = .min hint := rfl
  have hp : (Options.newMut.setLen (.min hint)).protect = .readWrite := rfl
  obtain ⟨w', hpg, a, -⟩ := C37_alloc_partial w (o := Options.newMut.setLen (.min hint)) (by
    rw [ho, hl, Nat.zero_mod]; simp only [AllocFits]; omega) h
  obtain ⟨a1, a2, a3, a4⟩ := a
  rw [ho, hpg, Nat.zero_mod] at a1 a2
  rw [hl] at a1
  simp only [AllocLen, Nat.zero_add] at a1
  refine ⟨w', a1.1, a1.2.1, a1.2.2, Nat.dvd_of_mod_eq_zero a2, a3, ?_⟩
  intro i b hi
  obtain ⟨k2, h1, h2, -⟩ := a4 (.inl hp) i b hi
  exact ⟨k2, h1, h2⟩

/-- In debug builds an allocation whose sizes do not fit panics. -/
theorem C37_debug {t : Target} (hc : t.checks = true) {k : Kernel} (w : Wf t k) {o : Options}
    (hf : ¬ AllocFits t k.page (o.offset % k.page) o.len) : o.alloc t k = .error .panic := by
  have hpp := w.page_pos
  obtain ⟨s, hs, hs2⟩ := w.page
  have hoff : (Size.page k).offset t o.offset = .ok (o.offset % k.page) := by
    rw [sizePage_eq, hs]; exact offset_eq
  simp only [Options.alloc, bind, Except.bind, hoff]
  cases hl : o.len with
  | endOf => rw [hl] at hf; exact absurd trivial hf
  | exact l =>
    rw [hl] at hf
    simp only [Options.allocLen, pure, Except.pure]
    rw [addU_panic hf hc]
  | max l =>
    rw [hl] at hf
    simp only [Options.allocLen, pure, Except.pure]
    rw [addU_panic hf hc]
  | min l =>
    rw [hl] at hf
    have hf : ¬ (o.offset % k.page + l + k.page < t.lim) := hf
    simp only [Options.allocLen, bind, Except.bind]
    by_cases h : o.offset % k.page + l < t.lim
    · rw [addU_ok h]
      simp only
      rw [sizeAlloc_eq]
      rw [hs] at hf ⊢
      rw [round_panic hf hc]
    · rw [addU_panic h hc]

/-- In a release build `offset + length` wraps: asking for `L = usize::MAX` bytes at offset 2 maps
one page and returns a map of length `L`. -/
theorem alloc_wraps {L : Nat} (hL : 2 + L = Target.lim ⟨.w64, false⟩ + 1) :
    ((Options.newMut.setOffset 2).setLen (.exact L)).alloc ⟨.w64, false⟩ (demo 0) =
      .ok (anonState (demo 0) 1000 1 .readWrite, .ok ⟨4096002, L⟩) := by
  have hr := mapAnon_room (t := ⟨.w64, false⟩) (k := demo 0) (len := 1) (prot := .readWrite)
    (by decide) (by decide) ⟨rfl, by decide, by decide, fun _ _ _ => rfl⟩
  have e1 : (Size.page (demo 0)).offset ⟨.w64, false⟩ 2 = .ok 2 := by decide
  have e2 : addU ⟨.w64, false⟩ 2 L = .ok 1 := by
    rw [addU_wrap (by omega) rfl, hL, Nat.add_mod_left]
    rfl
  have e3 : ((Options.newMut.setOffset 2).setLen (.exact L)).offset = 2 := rfl
  have e4 : ((Options.newMut.setOffset 2).setLen (.exact L)).protect = .readWrite := rfl
  have e5 : ((Options.newMut.setOffset 2).setLen (.exact L)).len = .exact L := rfl
  simp only [Options.alloc, e3, e4, e5, e1, bind, Except.bind, Options.allocLen, pure,
    Except.pure, e2, hr]
  rfl

/-- C37 is false: the map of `alloc_wraps` has length 2^64-1, but its byte 5000 is not mapped. -/
theorem C37_false : ¬ C37_full := by
  intro h
  obtain ⟨L, hL⟩ : ∃ L, 2 + L = Target.lim ⟨.w64, false⟩ + 1 := ⟨Target.lim ⟨.w64, false⟩ - 1, by decide⟩
  have hbig : 5000 < L := by
    have : 10000 < Target.lim ⟨.w64, false⟩ := by decide
    omega
  have a := h ⟨.w64, false⟩ (demo 0) _ ((Options.newMut.setOffset 2).setLen (.exact L)) _ (demo_wf 0)
    { resize := trivial
      len := show L < Target.lim ⟨.w64, false⟩ by omega
      offset := show 2 < Target.lim ⟨.w64, false⟩ by decide } (alloc_wraps hL)
  have hz := a.zero 5000 hbig
  have h2 : MapMut.get (anonState (demo 0) 1000 1 .readWrite) ⟨4096002, L⟩ 5000 =
      .error .memory := by
    rw [MapMut.get, if_pos hbig]
    have : (anonState (demo 0) 1000 1 .readWrite).pt ((4096002 + 5000) / 4096) = none := by
      decide
    simp only [Kernel.load]
    rw [show (anonState (demo 0) 1000 1 .readWrite).page = 4096 from rfl, this]
  rw [h2] at hz
  cases hz

example : ¬ AllocFits ⟨.w32, true⟩ (demo 0).page (3 % (demo 0).page) (.exact (2 ^ 32 - 1)) := by
  show ¬ (3 + (2 ^ 32 - 1) < _); decide

/-! ### C38 -/

/-- A read-only anonymous map can never be allocated, whatever the kernel would grant. -/
theorem C38_never (t : Target) (k : Kernel) {o : Options} (h : o.protect = .readOnly) :
    ∀ k' m, o.alloc t k ≠ .ok (k', .ok m) := by
  intro k' m he
  simp only [Options.alloc, bind, Except.bind] at he
  split at he
  · cases he
  split at he
  · cases he
  split at he
  · cases he
  rename_i n _
  rcases mapAnon_cases t k n o.protect with ⟨e, hx⟩ | ⟨p, hne, -⟩
  · rw [hx] at he
    obtain ⟨-, hy⟩ := ok_pair he
    cases hy
  · exact hne h

/-- C38 in full: with room, a read-only anonymous map of any fitting size is allocated. -/
def C38_full : Prop :=
  ∀ (t : Target) (k : Kernel) (o : Options), Wf t k → o.protect = .readOnly →
    AllocFits t k.page (o.offset % k.page) o.len →
    (∀ len, AllocLen k.page (o.offset % k.page) o.len len →
      o.offset % k.page + len ≠ 0 ∧ Room t k (o.offset % k.page + len)) →
    ∃ k' m, o.alloc t k = .ok (k', .ok m)

/-- C38 is false. -/
theorem C38_false : ¬ C38_full := by
  intro h
  obtain ⟨k', m, he⟩ := h ⟨.w64, true⟩ (demo 0) (Options.new.setLen (.exact 100)) (demo_wf 0) rfl
    (by show 0 % 4096 + 100 < _; decide) (by
      intro len hl
      have hl : len = 100 := hl
      subst hl
      exact ⟨by decide, rfl, by decide, by decide, fun _ _ _ => rfl⟩)
  exact C38_never _ _ rfl k' m he

/-- C38 for every other access (missing: `ReadOnly`, for which it is false). -/
theorem C38_partial {t : Target} {k : Kernel} (w : Wf t k) {o : Options}
    (hne : o.protect ≠ .readOnly) (hf : AllocFits t k.page (o.offset % k.page) o.len)
    (hroom : ∀ len, AllocLen k.page (o.offset % k.page) o.len len →
      o.offset % k.page + len ≠ 0 ∧ Room t k (o.offset % k.page + len)) :
    ∃ k' m, o.alloc t k = .ok (k', .ok m) := by
  obtain ⟨len, hl, -, h⟩ := alloc_cases w o hf
  obtain ⟨h1, h2⟩ := hroom len hl
  exact h hne h1 h2

/-- Non-vacuity: 5000 bytes at offset 3 can be allocated on the demo kernel, and
`MapMut::new(5000)` gives two pages there. -/
example : AllocFits ⟨.w64, true⟩ (demo 0).page (3 % (demo 0).page) (.exact 5000) ∧
    ∃ k' m, ((Options.newMut.setOffset 3).setLen (.exact 5000)).alloc ⟨.w64, true⟩ (demo 0) =
      .ok (k', .ok m) := by
  have hf : AllocFits ⟨.w64, true⟩ (demo 0).page (3 % (demo 0).page) (.exact 5000) := by
    show 3 + 5000 < _; decide
  refine ⟨hf, C38_partial (demo_wf 0) (by decide) hf ?_⟩
  intro len hl
  have hl : len = 5000 := hl
  subst hl
  exact ⟨by decide, rfl, by decide, by decide, fun _ _ _ => rfl⟩

example : Wf ⟨.w32, false⟩ (demo 0) ∧
    ∃ k' m, MapMut.new ⟨.w32, false⟩ (demo 0) 5000 = .ok (k', .ok m) := by
  refine ⟨demo_wf 0, ?_⟩
  refine C38_partial (o := Options.newMut.setLen (.min 5000)) (demo_wf 0) (by decide)
    (by show 0 + 5000 + 4096 < _; decide) ?_
  intro len hl
  have hl : 5000 ≤ len ∧ 4096 ∣ 0 + len ∧ len < 5000 + 4096 := hl
  have hl : len = 8192 := by omega
  subst hl
  exact ⟨by decide, rfl, by decide, by decide, fun _ _ _ => rfl⟩

example : (Options.newMut.setLen (.exact 100)).protect ≠ .readOnly ∧
    ∀ len, AllocLen 4096 (0 % 4096) (.exact 100) len →
      0 % 4096 + len ≠ 0 ∧ Room ⟨.w64, true⟩ (demo 0) (0 % 4096 + len) :=
  ⟨by decide, fun len hl => by
    have hl : len = 100 := hl
    subst hl
    exact ⟨by decide, rfl, by decide, by decide, fun _ _ _ => rfl⟩⟩

/-! ### C39 and C40 -/

theorem created_drop {t : Target} {k k1 k2 : Kernel} (w : Wf t k) {m : MapMut}
    {o off sh mw prot p n} (c : Created t k k1 m.ptr m.len o off sh mw prot p n)
    (hlen : 0 < m.len) (hp : k2.page = k.page) :
    ∃ k3, m.drop t k2 = .ok k3 ∧ SameButPages k2 k3 ∧
      (∀ q, k1.pt q ≠ k.pt q → k3.pt q = none) ∧
      (∀ q, k1.pt q = k.pt q → k3.pt q = k2.pt q) := by
  have he := drop_eq (t := t) (k := k2) (by rw [hp]; exact w.page) (m := m) (p := p) (n := n)
    (by rw [hp]; exact c.pages) hlen
  refine ⟨_, he, by constructor <;> rfl, ?_, ?_⟩
  · intro q hq
    apply if_pos
    exact Classical.byContradiction fun h => hq (c.others q h)
  · intro q hq
    apply if_neg
    rintro ⟨a, b⟩
    obtain ⟨e, he, -⟩ := c.mapped q a b
    rw [c.free q a b] at hq
    rw [he] at hq
    cases hq

/-- C39: dropping a file map of positive length unmaps exactly the pages its creation mapped
(those that differ between `k` and `k1`), in whatever state `k2` the program is by then; nothing
else changes. -/
theorem C39_drop_file (tab : SysTable) {t : Target} {k k1 k2 : Kernel} (w : Wf t k)
    {o : Options} (hfit : Fits t o) {fd : Nat} {m : MapMut}
    (h : o.mapIf tab t k fd = .ok (k1, .ok (some m))) (hlen : 0 < m.len)
    (hp : k2.page = k.page) :
    ∃ k3, m.drop t k2 = .ok k3 ∧ (Map.mk m).drop t k2 = .ok k3 ∧ SameButPages k2 k3 ∧
      (∀ q, k1.pt q ≠ k.pt q → k3.pt q = none) ∧
      (∀ q, k1.pt q = k.pt q → k3.pt q = k2.pt q) := by
  obtain ⟨k1', r, h1, g⟩ := mapIf_keeps tab w hfit (fd := fd)
  rw [h] at h1
  obtain ⟨rfl, rfl⟩ := ok_pair h1
  obtain ⟨f, p, n, -, -, -, -, c⟩ := g.made m rfl
  obtain ⟨k3, e, a⟩ := created_drop w c hlen hp
  exact ⟨k3, e, e, a⟩

/-- C39: the same for allocations (of fitting size). -/
theorem C39_drop_alloc {t : Target} {k k1 k2 : Kernel} (w : Wf t k) {o : Options}
    (hf : AllocFits t k.page (o.offset % k.page) o.len) {m : MapMut}
    (h : o.alloc t k = .ok (k1, .ok m)) (hlen : 0 < m.len) (hp : k2.page = k.page) :
    ∃ k3, m.drop t k2 = .ok k3 ∧ (Map.mk m).drop t k2 = .ok k3 ∧ SameButPages k2 k3 ∧
      (∀ q, k1.pt q ≠ k.pt q → k3.pt q = none) ∧
      (∀ q, k1.pt q = k.pt q → k3.pt q = k2.pt q) := by
  obtain ⟨len, hl, hc, -⟩ := alloc_cases w o hf
  rcases hc with ⟨e, he⟩ | ⟨p, k1', hne, hp0, -, -, hk1, w1, c, he⟩
  · rw [h] at he; obtain ⟨-, hx⟩ := ok_pair he; cases hx
  · rw [h] at he
    obtain ⟨rfl, hx⟩ := ok_pair he
    injection hx with hx
    subst hx
    obtain ⟨k3, e, a⟩ := created_drop w (m := ⟨p * k.page + o.offset % k.page, len⟩) c hlen hp
    exact ⟨k3, e, e, a⟩

/-- Non-vacuity of C39: creating a map of 3000 bytes at offset 5000 changes page 3000 (the third
system call), and dropping it in a state where page 3001 is also mapped removes page 3000
only. -/
example (tab : SysTable) : Wf ⟨.w64, true⟩ (demo 0) ∧
    ∃ k1 m k3,
    ((Options.new.setOffset 5000).setLen (.exact 3000)).mapIf tab ⟨.w64, true⟩ (demo 0) 3 =
      .ok (k1, .ok (some m)) ∧ 0 < m.len ∧
    m.drop ⟨.w64, true⟩ (k1.setPte 2001 (some ⟨0, 0, ⟨true, false, false⟩, true, true, none, false⟩)) =
      .ok k3 ∧ (k1.pt 2000).isSome ∧ k3.pt 2000 = none ∧ (k3.pt 2001).isSome :=
  ⟨demo_wf 0, _, _, _, rfl, by decide, rfl, rfl, rfl, rfl⟩

/-- C40 in full: creating a map, of any length, and dropping it leaves the page table as it
was. -/
def C40_full : Prop :=
  ∀ (tab : SysTable) (t : Target) (k k1 : Kernel) (o : Options) (fd : Nat) (m : MapMut),
    Wf t k → Fits t o → o.mapIf tab t k fd = .ok (k1, .ok (some m)) →
    ∃ k3, m.drop t k1 = .ok k3 ∧ k3.pt = k.pt

/-- A map of length zero always has a page, and dropping it never unmaps anything. -/
theorem C40_empty_leaks (tab : SysTable) {t : Target} {k k1 k2 : Kernel} (w : Wf t k)
    {o : Options} (hfit : Fits t o) {fd : Nat} {m : MapMut}
    (h : o.mapIf tab t k fd = .ok (k1, .ok (some m))) (hlen : m.len = 0) :
    m.drop t k2 = .ok k2 ∧ ∃ q e, k.pt q = none ∧ k1.pt q = some e := by
  obtain ⟨k1', r, h1, g⟩ := mapIf_keeps tab w hfit (fd := fd)
  rw [h] at h1
  obtain ⟨rfl, rfl⟩ := ok_pair h1
  obtain ⟨f, p, n, -, -, -, -, c⟩ := g.made m rfl
  refine ⟨?_, ?_⟩
  · rw [MapMut.drop, if_neg (by omega)]; rfl
  · have := c.pages.n_pos
    obtain ⟨e, he, -⟩ := c.mapped p (Nat.le_refl _) (by omega)
    exact ⟨p, e, c.free p (Nat.le_refl _) (by omega), he⟩

/-- C40 is false: mapping from the unaligned end of the demo file (offset 10000, length "to the
end") gives an empty map with one page, which is never unmapped. -/
theorem C40_false (tab : SysTable) : ¬ C40_full := by
  intro h
  have hm : ∃ k1 m, (Options.new.setOffset 10000).mapIf tab ⟨.w64, true⟩ (demo 0) 3 =
      .ok (k1, .ok (some m)) ∧ m.len = 0 := ⟨_, _, rfl, rfl⟩
  obtain ⟨k1, m, h1, h2⟩ := hm
  have fits : Fits ⟨.w64, true⟩ (Options.new.setOffset 10000) :=
    ⟨trivial, trivial, by decide⟩
  obtain ⟨k3, h3, h4⟩ := h tab _ _ _ _ _ _ (demo_wf 0) fits h1
  obtain ⟨d, q, e, d1, d2⟩ := C40_empty_leaks tab (k2 := k1) (demo_wf 0) fits h1 h2
  rw [d] at h3
  injection h3 with h3
  subst h3
  rw [h4, d1] at d2
  cases d2

/-- C40 for maps of positive length (missing: empty maps, for which it is false). -/
theorem C40_partial (tab : SysTable) {t : Target} {k k1 : Kernel} (w : Wf t k)
    {o : Options} (hfit : Fits t o) {fd : Nat} {m : MapMut}
    (h : o.mapIf tab t k fd = .ok (k1, .ok (some m))) (hlen : 0 < m.len) :
    ∃ k3, m.drop t k1 = .ok k3 ∧ k3.pt = k.pt := by
  obtain ⟨k1', r, h1, g⟩ := mapIf_keeps tab w hfit (fd := fd)
  rw [h] at h1
  obtain ⟨rfl, rfl⟩ := ok_pair h1
  obtain ⟨f, p, n, -, -, -, -, c⟩ := g.made m rfl
  obtain ⟨k3, e, -, a, b⟩ := created_drop w c hlen g.page
  refine ⟨k3, e, ?_⟩
  funext q
  by_cases hq : p ≤ q ∧ q < p + n
  · rw [c.free q hq.1 hq.2]
    apply a
    obtain ⟨e, he, -⟩ := c.mapped q hq.1 hq.2
    rw [c.free q hq.1 hq.2, he]
    exact Option.some_ne_none _
  · rw [b q (c.others q hq), c.others q hq]

end Vmap

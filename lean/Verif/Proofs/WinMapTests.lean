import Verif.Model.WinMapTests
import Verif.Proofs.MapTests
import Verif.Proofs.WinDocSys
/- Helper lemmas for C165: fresh allocations on Windows, numbers read and written through maps there, and
writes to copy-on-write maps. -/
namespace Vmap
open Spec

variable {t : Target}

/-- An allocation at any offset. -/
theorem winAllocedAt {k : WinFs} (g : WinGood t k) {o : Options} (rw_ : o.protect = .readWrite) {d : Nat}
    (off : o.offset % k.win.page = d) (fits : WinAllocFits t k.win.gran d o.len) :
    ∃ s' r, WinDocMap.on k (k.win.alloc t o) = .ok ({ k with win := s' }, r) ∧ WinGood t { k with win := s' } ∧
      WinKeeps k.win s' ∧ (∀ e, r = .error e → ∃ n, e.rawOsError = some n) ∧
      (∀ m, r = .ok m → AllocLen k.win.gran d o.len m.len ∧ (0 < m.len → ∃ v,
        WinBears s' v.sec (List.replicate (d + m.len) 0) ∧ WinSeen s' m v d true)) := by
  obtain ⟨s', r, h1, rest, wf', hok, herr⟩ := C81_alloc_partial t g.wf.win (o := o) (by rw [off]; exact fits)
  rw [off] at hok
  have hview : (∀ x, x ∈ s'.views → ∀ f, x.sec.file = some f → f < k.nextFile) ∧ WinLaid t s' := by
    cases r with
    | error e =>
      have := (herr e rfl).1
      exact ⟨by rw [this]; exact g.wf.views, g.laid.sub (WinRest.keeps rest) (by rw [this]; exact List.Sublist.refl _)⟩
    | ok m =>
      obtain ⟨-, -, ⟨v, wm⟩, -⟩ := hok m rfl
      refine ⟨fun x hx f hf => ?_, (WinMap.laid g.laid (WinRest.keeps rest) wm).1⟩
      rw [wm.views] at hx
      rcases List.mem_cons.mp hx with rfl | hx
      · rw [wm.sec.2] at hf; cases hf
      · exact g.wf.views x hx f hf
  refine ⟨s', r, WinDocMap.on_ok h1, ⟨⟨wf', g.wf.names, ?_, g.wf.once, g.wf.opened, hview.1⟩, hview.2⟩, WinRest.keeps rest, ?_, ?_⟩
  · show ∀ f, _ ↔ ∃ n, s'.files f = some n
    rw [rest.files]; exact g.wf.files
  · intro e he
    obtain ⟨-, code, h | h⟩ := herr e he <;> exact ⟨code, by rw [h]; rfl⟩
  · intro m hm
    obtain ⟨a, -, ⟨v, wm⟩, -⟩ := hok m hm
    obtain ⟨n1, n2⟩ := rest.bytes.new _ wm.sec.1 wm.new
    refine ⟨a, fun pos => ⟨v, ⟨fun f hf => ?_, fun i hi => ?_⟩, ?_⟩⟩
    · rw [wm.sec.2] at hf; cases hf
    · simp only [WinBytes.shown, wm.sec.2, n1]
      rw [List.length_replicate] at hi
      simp [List.getD_eq_getElem?_getD, hi]
    · have := WinMap.seen g.laid (WinRest.keeps rest) wm n2 pos
      rw [rw_] at this
      exact this

/-- Replacing some bytes through a map. -/
theorem WinSeen.putAt {k : WinFs} (g : WinGood t k) {m v off} (s : WinSeen k.win m v off true)
    {a b c new : List Byte} (tx : WinBears k.win v.sec (a ++ b ++ c)) {i : Nat} (ha : a.length = off + i)
    (hb : b.length = new.length) (hi : i + new.length ≤ m.len) (hl : off + m.len ≤ (a ++ b ++ c).length) :
    ∃ by', WinDocMap.storeN k.win (m.ptr + i) new = .ok { k.win with bytes := by' } ∧
      WinGood t { k with win := { k.win with bytes := by' } } ∧
      WinBears { k.win with bytes := by' } v.sec (a ++ new ++ c) ∧
      WinSeen { k.win with bytes := by' } m v off true := by
  obtain ⟨y, e, o, d, -⟩ := WinSeen.storeN new g s tx.size hi hl
  refine ⟨y, e, g.bare y, ⟨fun f hf => ?_, fun j hj => ?_⟩, s.bare o⟩
  · show k.win.files f = _
    rw [tx.size f hf]; simp only [List.length_append, hb]
  · show y.shown v.sec j = _
    rw [d j]
    split
    · rw [getD_mid (by omega) (by omega), ha]
    · rw [tx.data j (by simpa only [List.length_append, hb] using hj), getD_out hb (by omega)]

theorem WinSeen.end_lt {k : WinFs} (g : WinGood t k) {m v off w} (s : WinSeen k.win m v off w) :
    m.ptr + m.len < t.lim := by
  obtain ⟨m1, m2, m3, m4⟩ := s.mv
  obtain ⟨i1, i2, i3, i4, i5⟩ := g.laid.inside v s.mem
  have := k.win.roundPage_le g.wf.win.page_pos v.len
  omega

/-- Reading a number through a map. -/
theorem WinSeen.readNum {k : WinFs} (g : WinGood t k) {m v off w} (s : WinSeen k.win m v off w) (abi : Abi)
    {a b c : List Byte} (tx : WinBears k.win v.sec (a ++ b ++ c)) {i : Nat} (ha : a.length = off + i)
    (hb : b.length = 8) (hi : i + 8 ≤ m.len) :
    WinSpan.readUnaligned t abi k.win m.span .u64 i = .ok (abi.decode b) := by
  have he := s.end_lt g
  have hcap : assertCapacity t .u64 i m.len = .ok () := assertCapacity_ok (ty := .u64) hi (by omega)
  have hpa : ptrAdd t m.ptr i = m.ptr + i := ptrAdd_eq (by omega)
  have hsz : Scalar.size t .u64 = 8 := rfl
  have := win_loadN (s := k.win) b (m.ptr + i) (fun j hj => by
    rw [Nat.add_assoc, s.load g tx (by omega) (by simp only [List.length_append]; omega),
      getD_mid (by omega) (by omega)]
    congr 2
    omega)
  rw [hb] at this
  simp only [WinSpan.readUnaligned, MapMut.span, hcap, hpa, bind, Except.bind, hsz, this, pure, Except.pure]

/-- Writing a number through a map. -/
theorem WinSeen.writeNum {k : WinFs} (g : WinGood t k) {m v off} (s : WinSeen k.win m v off true) (abi : Abi)
    {a b c : List Byte} (tx : WinBears k.win v.sec (a ++ b ++ c)) {i : Nat} (ha : a.length = off + i)
    (hb : b.length = 8) (hi : i + 8 ≤ m.len) (hl : off + m.len ≤ (a ++ b ++ c).length) (n : Nat) :
    ∃ by', WinMapTests.writeUnaligned t abi k m i n = .ok { k with win := { k.win with bytes := by' } } ∧
      WinGood t { k with win := { k.win with bytes := by' } } ∧
      WinBears { k.win with bytes := by' } v.sec (a ++ abi.encode 8 n ++ c) ∧
      WinSeen { k.win with bytes := by' } m v off true := by
  have he := s.end_lt g
  have hcap : assertCapacity t .u64 i m.len = .ok () := assertCapacity_ok (ty := .u64) hi (by omega)
  have hpa : ptrAdd t m.ptr i = m.ptr + i := ptrAdd_eq (by omega)
  have hsz : Scalar.size t .u64 = 8 := rfl
  obtain ⟨y, e, h⟩ := s.putAt g tx ha (new := abi.encode 8 n) (by rw [encode_length, hb])
    (by rw [encode_length]; exact hi) hl
  exact ⟨y, by simp only [WinMapTests.writeUnaligned, WinSpan.writeUnaligned, MapMut.span, hcap, hpa, bind, Except.bind,
    hsz, e, pure, Except.pure], h⟩

theorem win_volatile_read {abi : Abi} {w : Vmap.Win} {s : Span} {ty : Scalar} {i : Nat}
    (h : assertAlignment t abi ty i s.ptr = .ok ()) :
    WinSpan.readVolatile t abi w s ty i = WinSpan.readUnaligned t abi w s ty i := by
  simp only [WinSpan.readVolatile, WinSpan.readUnaligned, h, bind, Except.bind]

theorem win_volatile_write {abi : Abi} {k : WinFs} {m : MapMut} {i v : Nat}
    (h : assertAlignment t abi .u64 i m.ptr = .ok ()) :
    WinMapTests.writeVolatile t abi k m i v = WinMapTests.writeUnaligned t abi k m i v := by
  have h : assertAlignment t abi .u64 i m.span.ptr = .ok () := h
  simp only [WinMapTests.writeVolatile, WinMapTests.writeUnaligned, WinSpan.writeVolatile, WinSpan.writeUnaligned, h, bind,
    Except.bind]

/-- A number at a multiple of its alignment in a map of a file from its beginning is aligned. -/
theorem WinSeen.numAligned {k : WinFs} (g : WinGood t k) {m v w} (s : WinSeen k.win m v 0 w) {abi : Abi} {i : Nat}
    (hp : abi.align .u64 ∣ k.win.gran) (hd : abi.align .u64 ∣ i) (hi : i < m.len) :
    assertAlignment t abi .u64 i m.ptr = .ok () := by
  have he := s.end_lt g
  obtain ⟨m1, m2, m3, m4⟩ := s.mv
  have ho := s.off
  have hb : m.ptr = v.base := by omega
  have h := Nat.dvd_add (Nat.dvd_trans hp (hb ▸ m1)) hd
  simp only [assertAlignment, ptrAdd_eq (show m.ptr + i < t.lim by omega)]
  rw [if_neg (by simpa using Nat.mod_eq_zero_of_dvd h)]

/-- Reading two numbers that follow each other. -/
theorem WinSeen.pair {k : WinFs} (g : WinGood t k) {m v w} (s : WinSeen k.win m v 0 w) (abi : Abi)
    {z b c : List Byte} (tx : WinBears k.win v.sec (z ++ b ++ c)) {d : Nat} (hz : z.length = d) (hb : b.length = 8)
    (hc : c.length = 8) (hl : m.len = d + 16) :
    WinSpan.readUnaligned t abi k.win m.span .u64 d = .ok (abi.decode b) ∧
    WinSpan.readUnaligned t abi k.win m.span .u64 (d + 8) = .ok (abi.decode c) := by
  have tx' : WinBears k.win v.sec (z ++ b ++ c ++ []) := by rw [List.append_nil]; exact tx
  exact ⟨s.readNum g abi tx (by omega) hb (by omega),
    s.readNum g abi (a := z ++ b) tx' (by simp only [List.length_append]; omega) hc (by omega)⟩

/-- Writing two numbers that follow each other. -/
theorem WinSeen.setPair {k : WinFs} (g : WinGood t k) {m v} (s : WinSeen k.win m v 0 true) (abi : Abi)
    {z b c : List Byte} (tx : WinBears k.win v.sec (z ++ b ++ c)) {d : Nat} (hz : z.length = d) (hb : b.length = 8)
    (hc : c.length = 8) (hl : m.len = d + 16) (x y : Nat) :
    ∃ k1 by', WinMapTests.writeUnaligned t abi k m d x = .ok k1 ∧
      WinMapTests.writeUnaligned t abi k1 m (d + 8) y = .ok { k with win := { k.win with bytes := by' } } ∧
      WinGood t { k with win := { k.win with bytes := by' } } ∧
      WinBears { k.win with bytes := by' } v.sec (z ++ abi.encode 8 x ++ abi.encode 8 y) ∧
      WinSeen { k.win with bytes := by' } m v 0 true := by
  obtain ⟨y1, e1, g1, tx1, s1⟩ := s.writeNum g abi tx (i := d) (by omega) hb (by omega)
    (by simp only [List.length_append]; omega) x
  have tx1' : WinBears { k.win with bytes := y1 } v.sec (z ++ abi.encode 8 x ++ c ++ []) := by
    rw [List.append_nil]; exact tx1
  obtain ⟨y2, e2, g2, tx2, s2⟩ := WinSeen.writeNum g1 s1 abi (a := z ++ abi.encode 8 x) tx1' (i := d + 8)
    (by simp only [List.length_append, encode_length]; omega) hc (by omega)
    (by simp only [List.length_append, encode_length, List.length_nil]; omega) y
  exact ⟨_, y2, e1, e2, g2, by rw [List.append_nil] at tx2; exact tx2, s2⟩

theorem WinMapTests.holds_ok {abi : Abi} {k : WinFs} {m : MapMut} {i v : Nat}
    (ha : assertAlignment t abi .u64 i m.ptr = .ok ())
    (hr : WinSpan.readUnaligned t abi k.win m.span .u64 i = .ok v) :
    WinMapTests.holds t abi k m i v = .ok () := by
  simp only [WinMapTests.holds, win_volatile_read (s := m.span) ha, hr, bind, Except.bind]
  rfl

theorem WinMapTests.anywhere_ok {abi : Abi} {k : WinFs} {m : MapMut} {i v : Nat}
    (hr : WinSpan.readUnaligned t abi k.win m.span .u64 i = .ok v) :
    WinMapTests.holdsAnywhere t abi k m i v = .ok () := by
  simp only [WinMapTests.holdsAnywhere, hr, bind, Except.bind]
  rfl

/-- A byte is written to a copy-on-write view. -/
theorem win_copy_store {s : Vmap.Win} {v : WinView} {a : Nat} {c : Byte} (look : s.look a = some v)
    (cp : v.access.copy = true) (nw : v.access.write = false) (load : s.load a = .ok c) (b : Byte) :
    ∃ by', s.store a b = .ok { s with bytes := by' } ∧
      ∀ a' x, s.look a' = some v → s.load a' = .ok x →
        Win.load { s with bytes := by' } a' = .ok (if a' = a then b else x) := by
  unfold Win.store
  rw [look]
  simp only [nw, cp, load, Bool.false_eq_true, if_false, if_true]
  refine ⟨_, rfl, fun a' x look' load' => ?_⟩
  have same : ∀ y : WinBytes, Win.look { s with bytes := y } a' = some v := fun y => look'
  have load0 := load'
  unfold Win.load at load' ⊢
  rw [look'] at load'
  rw [same]
  simp only [true_and] at load' ⊢
  by_cases ha : a' = a
  · subst ha
    by_cases hin : v.base ≤ a' ∧ a' < v.base + v.len
    · simp only [hin, and_self, if_true]
    · have hl := look'
      unfold Win.look at hl
      have := List.find?_some hl
      simp only [decide_eq_true_eq] at this
      omega
  · simp only [ha, if_false]
    cases ho : s.bytes.own v.sec.id a' with
    | some y =>
      simp only [ho] at load'
      simp only [ite_self]
      exact load'
    | none =>
      simp only [ho] at load'
      by_cases hin : a' / s.page = a / s.page ∧ v.base ≤ a' ∧ a' < v.base + v.len
      · rw [if_pos hin]
        simp only
        split at load'
        · exact load'
        · cases load'
      · rw [if_neg hin]
        exact load'

/-- Some bytes are written to a copy-on-write view. -/
theorem win_copy_storeN {v : WinView} (cp : v.access.copy = true) (nw : v.access.write = false) :
    ∀ (new : List Byte) {s : Vmap.Win} {a : Nat} {f : Nat → Byte} {lo hi : Nat}
      (_ : ∀ x, lo ≤ x → x < hi → s.look x = some v) (_ : ∀ x, lo ≤ x → x < hi → s.load x = .ok (f x))
      (_ : lo ≤ a) (_ : a + new.length ≤ hi),
      ∃ by', WinDocMap.storeN s a new = .ok { s with bytes := by' } ∧
        ∀ x, lo ≤ x → x < hi → Win.load { s with bytes := by' } x =
          .ok (if a ≤ x ∧ x < a + new.length then new.getD (x - a) 0 else f x)
  | [], s, a, f, lo, hi, _, load, _, _ => by
    refine ⟨s.bytes, rfl, fun x h1 h2 => ?_⟩
    rw [if_neg (by simp)]
    exact load x h1 h2
  | b :: bs, s, a, f, lo, hi, look, load, hlo, hhi => by
    rw [List.length_cons] at hhi
    obtain ⟨y, e, h⟩ := win_copy_store (look a hlo (by omega)) cp nw (load a hlo (by omega)) b
    obtain ⟨z, e', h'⟩ := win_copy_storeN cp nw bs (s := { s with bytes := y }) (a := a + 1)
      (f := fun x => if x = a then b else f x) (lo := lo) (hi := hi) look
      (fun x h1 h2 => h x _ (look x h1 h2) (load x h1 h2)) (by omega) (by omega)
    refine ⟨z, by simp only [WinDocMap.storeN, bind, Except.bind, e]; exact e', fun x h1 h2 => ?_⟩
    rw [h' x h1 h2, List.length_cons]
    by_cases hx : a + 1 ≤ x ∧ x < a + 1 + bs.length
    · rw [if_pos hx, if_pos (by omega)]
      have : x - a = (x - (a + 1)) + 1 := by omega
      rw [this]; rfl
    · rw [if_neg hx]
      by_cases hxa : x = a
      · rw [if_pos hxa, if_pos (by omega), hxa, Nat.sub_self]; rfl
      · rw [if_neg hxa, if_neg (by omega)]

end Vmap

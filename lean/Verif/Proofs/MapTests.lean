import Verif.Model.MapTests
import Verif.Proofs.DocMap
import Verif.Props.Span
import Verif.Props.Os
/- Helper lemmas for C164: fresh allocations, and numbers read and written through maps. -/
namespace Vmap
open Kernel Spec

variable {t : Target}

/-- An allocation at any offset. -/
theorem allocedAt {k : Kernel} (wf : Wf t k) {o : Options} (rw_ : o.protect = .readWrite)
    (fits : AllocFits t k.page (o.offset % k.page) o.len) :
    ∃ k' r, o.alloc t k = .ok (k', r) ∧ Wf t k' ∧ k'.page = k.page ∧
      (∀ e, r = .error e → ∃ n, e.rawOsError = some n) ∧
      (∀ m, r = .ok m → AllocLen k.page (o.offset % k.page) o.len m.len ∧
        m.ptr % k.page = o.offset % k.page ∧ ∃ x n, Text k' x (List.replicate n 0) ∧
        o.offset % k.page + m.len ≤ n ∧ Sees t k' m x (o.offset % k.page) true) := by
  obtain ⟨len, hl, hc, -⟩ := alloc_cases wf o fits
  rcases hc with ⟨e, he⟩ | ⟨p, k1, -, -, -, -, hk1, w1, c, he⟩
  · exact ⟨_, _, he, wf.same rfl rfl rfl rfl rfl rfl, rfl,
      fun e' h => (by injection h with h; subst h; exact ⟨e, rfl⟩), fun m h => by cases h⟩
  · have hpg : k1.page = k.page := by rw [hk1]; rfl
    refine ⟨_, _, he, w1, hpg, fun e h => (by cases h), ?_⟩
    intro m hm
    injection hm with hm
    subst hm
    have hpp := wf.page_pos
    refine ⟨hl, ?_, k.fresh, k.pages (o.offset % k.page + len) * k.page, ⟨?_, ?_⟩, ?_,
      ⟨p, _, by rw [hpg]; exact c.pages, fun q a b => ?_⟩, _, _,
      by have := c.maps; rw [rw_] at this; exact this, rfl, fun _ => rfl⟩
    · simp only [Nat.add_comm (p * k.page), Nat.add_mul_mod_self_right, Nat.mod_mod]
    · rw [hk1, List.length_replicate]; simp [anonState]
    · intro i hi
      rw [hk1]
      rw [List.length_replicate] at hi
      simp [anonState, List.getD_eq_getElem?_getD, hi]
    · rw [pages_eq]
      exact (isRoundUp_div (len := o.offset % k.page + len) hpp).2.1
    · obtain ⟨e, he, -⟩ := c.mapped q a b
      exact ⟨e, he⟩

/-- `into_map`, which leaves the names of files alone. -/
theorem Sees.intoMapNames {k : Kernel} (wf : Wf t k) {m : MapMut} {x off w} (s : Sees t k m x off w) :
    ∃ k' r, m.intoMap t k = .ok (k', r) ∧ Wf t k' ∧ k'.names = k.names ∧
      (∀ text, Text k x text → Text k' x text) ∧
      (∀ e b, r = .error (e, b) → ∃ n, e.rawOsError = some n) ∧
      (∀ m', r = .ok m' → m' = ⟨m⟩ ∧ Sees t k' m x off true) := by
  obtain ⟨k', r, e, w', tx, er, ok⟩ := s.intoMap wf
  refine ⟨k', r, e, w', ?_, tx, er, ok⟩
  obtain ⟨k1, r1, p, n, e1, e2, -, sb, -⟩ := s.protect wf
  simp only [MapMut.intoMap, e1, e2, bind, Except.bind] at e
  cases r1 <;> (obtain ⟨rfl, -⟩ := ok_pair e; exact sb.names)

theorem getD_mid {α : Type} {a b c : List α} {j : Nat} {d : α} (h1 : a.length ≤ j)
    (h2 : j < a.length + b.length) : (a ++ b ++ c).getD j d = b.getD (j - a.length) d := by
  simp only [List.getD_eq_getElem?_getD]
  rw [List.append_assoc, List.getElem?_append_right h1, List.getElem?_append_left (by omega)]

theorem getD_out {α : Type} {a b b' c : List α} {j : Nat} {d : α} (hb : b.length = b'.length)
    (h : j < a.length ∨ a.length + b.length ≤ j) : (a ++ b ++ c).getD j d = (a ++ b' ++ c).getD j d := by
  simp only [List.getD_eq_getElem?_getD]
  rcases h with h | h
  · rw [List.append_assoc, List.append_assoc, List.getElem?_append_left h, List.getElem?_append_left h]
  · rw [List.getElem?_append_right (by rw [List.length_append]; exact h),
      List.getElem?_append_right (by rw [List.length_append, ← hb]; exact h)]
    simp only [List.length_append, hb]

/-- Replacing some bytes through a map. -/
theorem Sees.putAt {k : Kernel} (wf : Wf t k) {m : MapMut} {x off} (s : Sees t k m x off true)
    {a b c new : List Byte} (tx : Text k x (a ++ b ++ c)) {i : Nat} (ha : a.length = off + i)
    (hb : b.length = new.length) (hi : i + new.length ≤ m.len) :
    ∃ k', k.storeN (m.ptr + i) new = .ok k' ∧ Wf t k' ∧ k'.names = k.names ∧ k'.page = k.page ∧
      Text k' x (a ++ new ++ c) ∧ Sees t k' m x off true := by
  obtain ⟨mw, prot, h, hr, hw⟩ := s.maps
  obtain ⟨k', e, st⟩ := storeN_maps new k i wf h hr (hw rfl) hi
  obtain ⟨s1, s2, s3, s4⟩ := st.shared rfl
  refine ⟨k', e, st.wf, st.fx.names, st.fx.page, ⟨?_, ?_⟩, ?_, mw, prot, st.maps, hr, hw⟩
  · rw [st.fx.size, tx.size]; simp only [List.length_append, hb]
  · intro j hj
    rw [s4 j]
    split
    · rename_i hj'
      rw [getD_mid (by omega) (by omega), ha]
    · rename_i hj'
      rw [tx.data j (by simpa only [List.length_append, hb] using hj), getD_out hb (by omega)]
  · obtain ⟨p, n, g⟩ := s.live
    exact ⟨p, n, by rw [st.fx.page]; exact g.pages, by rw [s1]; exact g.mapped⟩

theorem Sees.end_lt {k : Kernel} {m : MapMut} {x off w} (s : Sees t k m x off w) : m.ptr + m.len < t.lim := by
  obtain ⟨p, n, g⟩ := s.live
  have := g.pages.upper
  have := g.pages.fits
  omega

/-- Reading a number through a map. -/
theorem Sees.readNum {k : Kernel} (wf : Wf t k) {m : MapMut} {x off w} (s : Sees t k m x off w) (abi : Abi)
    {a b c : List Byte} (tx : Text k x (a ++ b ++ c)) {i : Nat} (ha : a.length = off + i)
    (hb : b.length = 8) (hi : i + 8 ≤ m.len) (hl : off + m.len ≤ (a ++ b ++ c).length) :
    m.span.readUnaligned t abi k .u64 i = .ok (abi.decode b) := by
  have he := s.end_lt
  have hcap : assertCapacity t .u64 i m.len = .ok () := assertCapacity_ok (ty := .u64) hi (by omega)
  have hpa : ptrAdd t m.ptr i = m.ptr + i := ptrAdd_eq (by omega)
  have := s.loadN wf tx hl (a := i) (b := i + 8) (by omega) hi
  have hd : ((a ++ b ++ c).drop (off + i)).take (i + 8 - i) = b := by
    rw [← ha, List.append_assoc, List.drop_left, Nat.add_sub_cancel_left, ← hb, List.take_left]
  rw [hd, Nat.add_sub_cancel_left] at this
  have hsz : Scalar.size t .u64 = 8 := rfl
  simp only [Span.readUnaligned, MapMut.span, hcap, hpa, bind, Except.bind, hsz, this, pure, Except.pure]

/-- Writing a number through a map. -/
theorem Sees.writeNum {k : Kernel} (wf : Wf t k) {m : MapMut} {x off} (s : Sees t k m x off true) (abi : Abi)
    {a b c : List Byte} (tx : Text k x (a ++ b ++ c)) {i : Nat} (ha : a.length = off + i)
    (hb : b.length = 8) (hi : i + 8 ≤ m.len) (v : Nat) :
    ∃ k', m.span.writeUnaligned t abi k .u64 i v = .ok k' ∧ Wf t k' ∧ k'.names = k.names ∧ k'.page = k.page ∧
      Text k' x (a ++ abi.encode 8 v ++ c) ∧ Sees t k' m x off true := by
  have he := s.end_lt
  have hcap : assertCapacity t .u64 i m.len = .ok () := assertCapacity_ok (ty := .u64) hi (by omega)
  have hpa : ptrAdd t m.ptr i = m.ptr + i := ptrAdd_eq (by omega)
  have hsz : Scalar.size t .u64 = 8 := rfl
  obtain ⟨k', e, h⟩ := s.putAt wf tx ha (new := abi.encode 8 v) (by rw [encode_length, hb])
    (by rw [encode_length]; exact hi)
  exact ⟨k', by simp only [Span.writeUnaligned, MapMut.span, hcap, hpa, bind, Except.bind, hsz, e], h⟩

/-- A map of a file from its beginning starts at a page. -/
theorem Sees.aligned {k : Kernel} {m : MapMut} {x w} (s : Sees t k m x 0 w) (pos : 0 < m.len) :
    k.page ∣ m.ptr := by
  obtain ⟨mw, prot, h, -⟩ := s.maps
  obtain ⟨e, -, -, he, -⟩ := h 0 pos
  exact Nat.dvd_of_mod_eq_zero (by simp only [Nat.add_zero] at he; omega)

theorem volatile_read {abi : Abi} {k : Kernel} {s : Span} {ty : Scalar} {i : Nat}
    (h : assertAlignment t abi ty i s.ptr = .ok ()) :
    s.readVolatile t abi k ty i = s.readUnaligned t abi k ty i := by
  simp only [Span.readVolatile, Span.readUnaligned, h, bind, Except.bind]

theorem volatile_write {abi : Abi} {k : Kernel} {s : Span} {ty : Scalar} {i v : Nat}
    (h : assertAlignment t abi ty i s.ptr = .ok ()) :
    s.writeVolatile t abi k ty i v = s.writeUnaligned t abi k ty i v := by
  simp only [Span.writeVolatile, Span.writeUnaligned, h, bind, Except.bind]

/-- A number at a multiple of its alignment in a map of a file from its beginning is aligned. -/
theorem Sees.numAligned {k : Kernel} {m : MapMut} {x w} (s : Sees t k m x 0 w) {abi : Abi} {i : Nat}
    (hp : abi.align .u64 ∣ k.page) (hd : abi.align .u64 ∣ i) (hi : i < m.len) :
    assertAlignment t abi .u64 i m.ptr = .ok () := by
  have he := s.end_lt
  have h := Nat.dvd_add (Nat.dvd_trans hp (s.aligned (by omega))) hd
  simp only [assertAlignment, ptrAdd_eq (show m.ptr + i < t.lim by omega)]
  rw [if_neg (by simpa using Nat.mod_eq_zero_of_dvd h)]

/-- Reading two numbers that follow each other. -/
theorem Sees.pair {k : Kernel} (wf : Wf t k) {m : MapMut} {x w} (s : Sees t k m x 0 w) (abi : Abi)
    {z b c : List Byte} (tx : Text k x (z ++ b ++ c)) {d : Nat} (hz : z.length = d) (hb : b.length = 8)
    (hc : c.length = 8) (hl : m.len = d + 16) :
    m.span.readUnaligned t abi k .u64 d = .ok (abi.decode b) ∧
    m.span.readUnaligned t abi k .u64 (d + 8) = .ok (abi.decode c) := by
  have hlen : (z ++ b ++ c).length = d + 16 := by simp only [List.length_append, hz, hb, hc]
  have tx' : Text k x (z ++ b ++ c ++ []) := by rw [List.append_nil]; exact tx
  exact ⟨s.readNum wf abi tx (by omega) hb (by omega) (by omega),
    s.readNum wf abi (a := z ++ b) tx' (by simp only [List.length_append]; omega) hc (by omega)
      (by rw [List.append_nil]; omega)⟩

/-- Writing two numbers that follow each other. -/
theorem Sees.setPair {k : Kernel} (wf : Wf t k) {m : MapMut} {x} (s : Sees t k m x 0 true) (abi : Abi)
    {z b c : List Byte} (tx : Text k x (z ++ b ++ c)) {d : Nat} (hz : z.length = d) (hb : b.length = 8)
    (hc : c.length = 8) (hl : m.len = d + 16) (u v : Nat) :
    ∃ k1 k2, m.span.writeUnaligned t abi k .u64 d u = .ok k1 ∧
      m.span.writeUnaligned t abi k1 .u64 (d + 8) v = .ok k2 ∧ Wf t k2 ∧ k2.names = k.names ∧ k2.page = k.page ∧
      Text k2 x (z ++ abi.encode 8 u ++ abi.encode 8 v) ∧ Sees t k2 m x 0 true := by
  obtain ⟨k1, e1, w1, nm1, pg1, tx1, s1⟩ := s.writeNum wf abi tx (i := d) (by omega) hb (by omega) u
  have tx1' : Text k1 x (z ++ abi.encode 8 u ++ c ++ []) := by rw [List.append_nil]; exact tx1
  obtain ⟨k2, e2, w2, nm2, pg2, tx2, s2⟩ := s1.writeNum w1 abi (a := z ++ abi.encode 8 u) tx1' (i := d + 8)
    (by simp only [List.length_append, encode_length]; omega) hc (by omega) v
  exact ⟨k1, k2, e1, e2, w2, nm2.trans nm1, pg2.trans pg1, by rw [List.append_nil] at tx2; exact tx2, s2⟩

theorem decode_zeros (abi : Abi) : abi.decode (List.replicate 8 0) = 0 := by
  unfold Abi.decode; split <;> rfl

theorem assert_of {p : Prop} [Decidable p] (h : p) : Doc.assert (decide p) = .ok () := by
  simp [Doc.assert, h]

theorem MapTests.holds_ok {abi : Abi} {k : Kernel} {m : MapMut} {i v : Nat}
    (ha : assertAlignment t abi .u64 i m.ptr = .ok ()) (hr : m.span.readUnaligned t abi k .u64 i = .ok v) :
    MapTests.holds t abi k m i v = .ok () := by
  simp only [MapTests.holds, volatile_read (s := m.span) ha, hr, bind, Except.bind]
  rfl

theorem MapTests.anywhere_ok {abi : Abi} {k : Kernel} {m : MapMut} {i v : Nat}
    (hr : m.span.readUnaligned t abi k .u64 i = .ok v) : MapTests.holdsAnywhere t abi k m i v = .ok () := by
  simp only [MapTests.holdsAnywhere, hr, bind, Except.bind]
  rfl

/-- What `alloc_offset` has after it made the page after its five bytes read-only. -/
structure Split (t : Target) (k : Kernel) (m : MapMut) (x : Obj) (off : Nat) : Prop where
  wf : Wf t k
  len : m.len = 6
  first : ∃ mw prot, k.MapsAll m.ptr 5 x off true mw prot ∧ prot.r = true ∧ prot.w = true
  last : ∃ mw, k.Maps (m.ptr + 5) x (off + 5) true mw ⟨true, false, false⟩

theorem Split.load {k : Kernel} {m : MapMut} {x off} (s : Split t k m x off) {i : Nat} (hi : i < 6) :
    k.load (m.ptr + i) = .ok (k.data x (off + i)) := by
  by_cases h : i < 5
  · obtain ⟨mw, prot, f, hr, -⟩ := s.first
    exact (f i h).load_shared s.wf hr
  · have : i = 5 := by omega
    subst this
    obtain ⟨mw, l⟩ := s.last
    exact l.load_shared s.wf rfl

theorem Split.shows {k : Kernel} {m : MapMut} {x off} (s : Split t k m x off) {text : List Byte}
    (hl : text.length = 6) (h : ∀ i, i < 6 → k.data x (off + i) = text.getD i 0) :
    DocMap.shows k m 0 m.len text = .ok () := by
  rw [DocMap.shows, if_pos ⟨Nat.zero_le _, Nat.le_refl _⟩]
  have := loadN_eq (k := k) text (m.ptr + 0) (fun i hi => by rw [Nat.add_zero, s.load (by omega), h i (by omega)])
  rw [show m.len - 0 = text.length by rw [s.len, hl], this]
  simp only [bind, Except.bind, Doc.assert, decide_true, if_true]

theorem Split.store {k : Kernel} {m : MapMut} {x off} (s : Split t k m x off) {new : List Byte}
    (hl : new.length = 5) :
    ∃ k', k.storeN m.ptr new = .ok k' ∧ Split t k' m x off ∧
      (∀ i, i < 5 → k'.data x (off + i) = new.getD i 0) ∧ k'.data x (off + 5) = k.data x (off + 5) := by
  obtain ⟨mw, prot, f, hr, hw⟩ := s.first
  obtain ⟨mw', l⟩ := s.last
  obtain ⟨k', e, st⟩ := storeN_maps new k 0 s.wf f hr hw (by omega)
  obtain ⟨-, -, -, s4⟩ := st.shared rfl
  refine ⟨k', e, ⟨st.wf, s.len, ⟨mw, prot, st.maps, hr, hw⟩, mw', st.fx.maps l⟩, fun i hi => ?_, ?_⟩
  · rw [s4, if_pos (by omega)]; congr 1; omega
  · rw [s4, if_neg (by omega)]

theorem storeN_snoc {k k' : Kernel} : ∀ {bs : List Byte} {a : Nat} {b : Byte}, k.storeN a bs = .ok k' →
    k.storeN a (bs ++ [b]) = k'.store (a + bs.length) b
  | [], a, b, h => by
    injection h with h
    subst h
    simp only [List.nil_append, Kernel.storeN, List.length_nil, Nat.add_zero, bind, Except.bind]
    split <;> simp_all
  | c :: bs, a, b, h => by
    simp only [List.cons_append, Kernel.storeN, bind, Except.bind, List.length_cons] at h ⊢
    cases hx : k.store a c with
    | error e => rw [hx] at h; cases h
    | ok k1 =>
      rw [hx] at h
      simp only at h ⊢
      rw [storeN_snoc h]
      congr 1
      omega

theorem Maps.store_denied {k : Kernel} {a o j sh mw prot} (m : k.Maps a o j sh mw prot) (hw : prot.w = false)
    (b : Byte) : k.store a b = .error .memory := by
  obtain ⟨e, h1, -, -, -, -, h6, -⟩ := m
  simp [Kernel.store, h1, h6, hw]

/-- `alloc_offset` up to the change of the access. -/
theorem split_made {k : Kernel} (wf : Wf t k) (page : 5 < k.page) (fits : k.page + 1 < t.lim) :
    (Size.alloc k).size t 1 = .ok k.page ∧ subU t k.page 5 = .ok (k.page - 5) ∧
    ∃ k1 r1, ((Options.newMut.setOffset (k.page - 5)).setLen (.exact 6)).alloc t k = .ok (k1, r1) ∧
      (∀ e, r1 = .error e → ∃ n, e.rawOsError = some n) ∧
      ∀ m, r1 = .ok m → ∃ k2 r2, Unix.protect k1 (ptrAdd t m.ptr 5) 1 .readOnly = (k2, r2) ∧
        (∀ e, r2 = .error e → ∃ n, e.rawOsError = some n) ∧
        (r2 = .ok () → ∃ x, Split t k2 m x (k.page - 5) ∧ ∀ i, i < 6 → k2.data x (k.page - 5 + i) = 0) := by
  obtain ⟨a, ha, hb⟩ := wf.page
  refine ⟨?_, subU_ok (by omega), ?_⟩
  · have := C03_size t a 1 (by omega) (by rw [Nat.one_mul, ← ha]; omega)
    rw [Nat.one_mul, ← ha] at this
    exact this
  have hoff : (k.page - 5) % k.page = k.page - 5 := Nat.mod_eq_of_lt (by omega)
  obtain ⟨k1, r1, e1, w1, pg1, er1, ok1⟩ := allocedAt wf
    (o := (Options.newMut.setOffset (k.page - 5)).setLen (.exact 6)) rfl
    (by show (k.page - 5) % k.page + 6 < t.lim; rw [hoff]; omega)
  refine ⟨k1, r1, e1, er1, fun m hm => ?_⟩
  obtain ⟨hl, hp, x, n, tx, hle, s⟩ := ok1 m hm
  have hl : m.len = 6 := hl
  have hp : m.ptr % k.page = (k.page - 5) % k.page := hp
  have s : Sees t k1 m x ((k.page - 5) % k.page) true := s
  have hle : (k.page - 5) % k.page + m.len ≤ n := hle
  rw [hoff] at hp s hle
  have hlim := s.end_lt
  have hpa : ptrAdd t m.ptr 5 = m.ptr + 5 := ptrAdd_eq (by omega)
  obtain ⟨k2, r2, e2, w2, sb, call, -, chg⟩ := C89_protect w1 (m.ptr + 5) 1 .readOnly
  refine ⟨k2, r2, by rw [hpa]; exact e2, fun e h => ?_, fun h => ?_⟩
  · subst h; exact wrapErr_raw e2
  have chg := chg h
  obtain ⟨mw, prot, ma, hr, hw⟩ := s.maps
  have hpp := wf.page_pos
  have hdiv := Nat.div_add_mod m.ptr k.page
  have hpage : ∀ i, i < 5 → (m.ptr + i) / k.page = m.ptr / k.page := by
    intro i hi
    rw [Nat.div_eq_of_lt_le] <;> rw [Nat.mul_comm]
    · omega
    · rw [Nat.mul_add]; omega
  have hlast : (m.ptr + 5) / k.page = m.ptr / k.page + 1 := by
    rw [Nat.div_eq_of_lt_le] <;> rw [Nat.mul_comm]
    · rw [Nat.mul_add]; omega
    · rw [Nat.mul_add, Nat.mul_add]; omega
  refine ⟨x, ⟨w2, hl, ⟨mw, prot, fun i hi => ?_, hr, hw rfl⟩, mw, ?_⟩, fun i hi => ?_⟩
  · obtain ⟨e, h1, h2, h3, h4, h5, h6, h7⟩ := ma i (by omega)
    refine ⟨e, ?_, h2, by rw [sb.page]; exact h3, h4, h5, h6, by simp only [backed, sb.page, sb.size] at h7 ⊢; exact h7⟩
    rw [sb.page, (chg _).2, h1]
    rintro ⟨h, -⟩
    rw [pg1, hpage i hi, Nat.add_mul, Nat.mul_comm] at h
    omega
  · obtain ⟨e, h1, h2, h3, h4, h5, h6, h7⟩ := ma 5 (by omega)
    obtain ⟨e', g1, g2⟩ := (chg ((m.ptr + 5) / k1.page)).1 (by
      rw [pg1, hlast]
      refine ⟨?_, ?_⟩
      · rw [Nat.mul_comm, Nat.mul_add, Nat.mul_add]; omega
      · rw [Nat.mul_comm, Nat.mul_add]; omega)
    rw [h1] at g1
    injection g1 with g1
    subst g1
    exact ⟨{ e with prot := ⟨true, false, false⟩ }, by rw [sb.page]; exact g2, h2, by rw [sb.page]; exact h3, h4, h5, rfl,
      by simp only [backed, sb.page, sb.size] at h7 ⊢; exact h7⟩
  · rw [sb.data, tx.data _ (by rw [List.length_replicate]; omega)]
    simp only [List.getD_eq_getElem?_getD, List.getElem?_replicate]
    rw [if_pos (by omega)]; rfl

end Vmap

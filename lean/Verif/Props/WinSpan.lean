import Verif.Proofs.WinSpan
/-
C166: reading and writing numbers through maps on Windows.
-/
namespace Vmap
open Spec

/-- C166 for unaligned accesses: an in-range write succeeds; reading the same place returns the value;
the bytes written are the value's native representation; all other bytes of the span keep their
value; and the span can still be written. -/
theorem C166_unaligned (t : Target) (abi : Abi) (w : Vmap.Win) (s : Span) {view : WinView}
    (h : WinWritable w s.ptr s.len view) (fits : s.ptr + s.len < t.lim)
    (ty : Scalar) (off v : Nat) (hv : v < 256 ^ ty.size t) (hin : off + ty.size t ≤ s.len) :
    ∃ w', WinSpan.writeUnaligned t abi w s ty off v = .ok w' ∧
      WinSpan.readUnaligned t abi w' s ty off = .ok v ∧
      (∀ i, i < ty.size t →
        w'.load (s.ptr + off + i) = .ok (UInt8.ofNat (nativeByte abi.bigEndian (ty.size t) v i))) ∧
      (∀ i, i < s.len → (i < off ∨ off + ty.size t ≤ i) → w'.load (s.ptr + i) = w.load (s.ptr + i)) ∧
      WinWritable w' s.ptr s.len view := by
  have hel := encode_length abi (ty.size t) v
  obtain ⟨y, e1, w1, l1⟩ := h.storeN (abi.encode (ty.size t) v) (i := off) (by omega)
  have hcap := assertCapacity_ok hin (by omega : s.len < t.lim)
  have hpa : ptrAdd t s.ptr off = s.ptr + off := ptrAdd_eq (by have := Scalar.size_pos t ty; omega)
  have bytes : ∀ i, i < ty.size t →
      Win.load { w with bytes := y } (s.ptr + off + i) = .ok ((abi.encode (ty.size t) v).getD i 0) := by
    intro i hi
    rw [Nat.add_assoc, l1 (off + i) (by omega), if_pos (by omega), show off + i - off = i by omega]
  refine ⟨_, ?_, ?_, ?_, ?_, w1⟩
  · simp only [WinSpan.writeUnaligned, hcap, hpa, bind, Except.bind, e1]
  · have := win_loadN (s := { w with bytes := y }) (abi.encode (ty.size t) v) (s.ptr + off)
      (fun i hi => bytes i (by omega))
    rw [hel] at this
    simp only [WinSpan.readUnaligned, hcap, hpa, bind, Except.bind, this, pure, Except.pure]
    rw [decode_encode abi _ v hv]
  · intro i hi
    rw [bytes i hi, encode_get abi _ v i hi]
  · intro i hi ho
    rw [l1 i hi, if_neg (by omega)]

/-- C166 for volatile accesses in range: at an address that is a multiple of the type's alignment they
do what the unaligned ones do; at any other they panic. -/
theorem C166_volatile (t : Target) (abi : Abi) (w : Vmap.Win) (s : Span) {view : WinView}
    (h : WinWritable w s.ptr s.len view) (fits : s.ptr + s.len < t.lim)
    (ty : Scalar) (off v : Nat) (hv : v < 256 ^ ty.size t) (hin : off + ty.size t ≤ s.len) :
    (abi.align ty ∣ s.ptr + off → ∃ w', WinSpan.writeVolatile t abi w s ty off v = .ok w' ∧
      WinSpan.writeUnaligned t abi w s ty off v = .ok w' ∧ WinSpan.readVolatile t abi w' s ty off = .ok v ∧
      ∃ old, WinSpan.readVolatile t abi w s ty off = .ok old ∧ WinSpan.readUnaligned t abi w s ty off = .ok old) ∧
    (¬ abi.align ty ∣ s.ptr + off → WinSpan.writeVolatile t abi w s ty off v = .error .panic ∧
      WinSpan.readVolatile t abi w s ty off = .error .panic) := by
  have hcap := assertCapacity_ok hin (by omega : s.len < t.lim)
  have hpa : ptrAdd t s.ptr off = s.ptr + off := ptrAdd_eq (by have := Scalar.size_pos t ty; omega)
  refine ⟨fun hal => ?_, fun hal => ?_⟩
  · have ha : assertAlignment t abi ty off s.ptr = .ok () := by
      simp only [assertAlignment, hpa]
      rw [if_neg (by simpa using Nat.mod_eq_zero_of_dvd hal)]
    obtain ⟨w', h1, h2, -⟩ := C166_unaligned t abi w s h fits ty off v hv hin
    obtain ⟨bs, hbs⟩ := win_loadN_some (s := w) (ty.size t) (s.ptr + off) (fun i hi => by
      rw [Nat.add_assoc]; exact h.loads (off + i) (by omega))
    refine ⟨w', ?_, h1, by rw [win_volatile_read ha]; exact h2, abi.decode bs, ?_, ?_⟩
    · rw [← h1]
      simp only [WinSpan.writeVolatile, WinSpan.writeUnaligned, ha, bind, Except.bind]
    · simp only [WinSpan.readVolatile, hcap, hpa, ha, bind, Except.bind, hbs, pure, Except.pure]
    · simp only [WinSpan.readUnaligned, hcap, hpa, bind, Except.bind, hbs, pure, Except.pure]
  · have ha : assertAlignment t abi ty off s.ptr = .error .panic := by
      simp only [assertAlignment, hpa]
      rw [if_pos (fun h => hal (Nat.dvd_of_mod_eq_zero h))]
    simp only [WinSpan.readVolatile, WinSpan.writeVolatile, hcap, ha, bind, Except.bind, and_self]

/-- C166: accesses that end beyond the span panic, whatever the memory, provided the end does not wrap
around `usize` or the build checks for overflow. -/
theorem C166_out_of_range (t : Target) (abi : Abi) (w : Vmap.Win) (s : Span) (ty : Scalar)
    (off v : Nat) (hout : s.len < off + ty.size t) (hwrap : off + ty.size t < t.lim ∨ t.checks = true) :
    WinSpan.readVolatile t abi w s ty off = .error .panic ∧
    WinSpan.readUnaligned t abi w s ty off = .error .panic ∧
    WinSpan.writeVolatile t abi w s ty off v = .error .panic ∧
    WinSpan.writeUnaligned t abi w s ty off v = .error .panic := by
  have h := assertCapacity_panic hout hwrap
  simp [WinSpan.readVolatile, WinSpan.readUnaligned, WinSpan.writeVolatile, WinSpan.writeUnaligned, h, bind,
    Except.bind]

/-- A `u16` at the last byte of a span of 8 bytes, any build. -/
example (t : Target) : (⟨4096, 8⟩ : Span).len < 7 + Scalar.u16.size t ∧
    (7 + Scalar.u16.size t < t.lim ∨ t.checks = true) := by
  have := t.lim_cases
  simp only [Scalar.size]
  exact ⟨by omega, .inl (by omega)⟩

/-- C166: what a build without overflow checks does with an offset whose end wraps around: it accesses
memory below the span. -/
theorem C166_wraps_below (t : Target) (hc : t.checks = false) (abi : Abi) (w : Vmap.Win) (s : Span)
    (ty : Scalar) (off v : Nat) (hoff : off < t.lim) (hptr : s.ptr < t.lim)
    (hwrap : t.lim ≤ off + ty.size t) (hlen : off + ty.size t - t.lim ≤ s.len) (hp : t.lim ≤ s.ptr + off) :
    WinSpan.readUnaligned t abi w s ty off =
      (WinDocMap.loadN w (s.ptr - (t.lim - off)) (ty.size t)).map abi.decode ∧
    WinSpan.writeUnaligned t abi w s ty off v =
      WinDocMap.storeN w (s.ptr - (t.lim - off)) (abi.encode (ty.size t) v) := by
  have hsz : ty.size t ≤ 16 := by
    rcases t with ⟨w, c⟩
    cases w <;> cases ty <;> simp [Scalar.size, Width.bits]
  have hlim : 16 < t.lim := by have := t.lim_cases; omega
  have hadd : addU t off (ty.size t) = .ok (off + ty.size t - t.lim) := by
    rw [addU_wrap (by omega) hc, Nat.mod_eq_sub_mod hwrap, Nat.mod_eq_of_lt (by omega)]
  have hcap : assertCapacity t ty off s.len = .ok () := by
    simp only [assertCapacity, bind, Except.bind, hadd]
    rw [if_neg (by omega)]
  have hpa : ptrAdd t s.ptr off = s.ptr - (t.lim - off) := by
    simp only [ptrAdd, asUsize]
    rw [Nat.mod_eq_sub_mod hp, Nat.mod_eq_of_lt (by omega)]
    omega
  constructor
  · simp only [WinSpan.readUnaligned, hcap, hpa, bind, Except.bind]
    cases WinDocMap.loadN w (s.ptr - (t.lim - off)) (ty.size t) <;> rfl
  · simp only [WinSpan.writeUnaligned, hcap, hpa, bind, Except.bind]

example : (2 ^ 64 - 1 < (Target.mk .w64 false).lim) ∧
    (Target.mk .w64 false).lim ≤ 2 ^ 64 - 1 + Scalar.u16.size (Target.mk .w64 false) ∧
    2 ^ 64 - 1 + Scalar.u16.size (Target.mk .w64 false) - (Target.mk .w64 false).lim ≤ (⟨4096, 8⟩ : Span).len ∧
    (Target.mk .w64 false).lim ≤ (⟨4096, 8⟩ : Span).ptr + (2 ^ 64 - 1) := by decide

variable {t : Target}

/-- C166: the memory of a map that was allocated for writing can be read and written. -/
theorem C166_alloc {k : WinFs} (g : WinGood t k) {o : Options} (rw_ : o.protect = .readWrite)
    (fits : WinAllocFits t k.win.gran (o.offset % k.win.page) o.len) :
    ∃ w' r, k.win.alloc t o = .ok (w', r) ∧ (∀ e, r = .error e → ∃ n, e.rawOsError = some n) ∧
      (∀ m, r = .ok m → 0 < m.len → m.ptr + m.len < t.lim ∧ ∃ view, WinWritable w' m.ptr m.len view) := by
  obtain ⟨s1, r1, e1, g1, -, er1, ok1⟩ := winAllocedAt g rw_ rfl fits
  have e : k.win.alloc t o = .ok (s1, r1) := by
    cases h : k.win.alloc t o with
    | error f => rw [h] at e1; cases e1
    | ok x =>
      rw [h] at e1
      obtain ⟨x1, x2⟩ := x
      injection e1 with e1
      injection e1 with e1 e2
      subst e2
      have : x1 = s1 := by injection e1
      rw [this]
  refine ⟨s1, r1, e, er1, fun m hm pos => ?_⟩
  obtain ⟨-, hv⟩ := ok1 m hm
  obtain ⟨v, tx, s⟩ := hv pos
  exact ⟨WinSeen.end_lt g1 s, v, WinSeen.writable g1 s tx (by rw [List.length_replicate]; omega) (.inl (s.write rfl))⟩

/-- C166: the memory of a map of a file that was opened for writing or as a copy can be read and written. -/
theorem C166_open (tab : SysTable) {k : WinFs} (g : WinGood t k) {o : Options} (fits : Fits t o)
    {path : String} {text : List Byte} (has : WinFileHas k path text) (small : text.length < t.lim)
    (tr : o.openOptions.truncate = o.truncate) (can : o.protect = .readWrite ∨ o.protect = .readCopy) :
    ∃ k' r, k.open_ tab t o path = .ok (k', r) ∧
      (∀ m fd, r = .ok (m, fd) → 0 < m.len →
        m.ptr + m.len < t.lim ∧ ∃ view, WinWritable k'.win m.ptr m.len view) := by
  obtain ⟨k1, r1, e1, g1, -, -, ok1⟩ := winOpened tab g fits (.inl has) small tr
  refine ⟨k1, r1, e1, fun m fd hm pos => ?_⟩
  obtain ⟨f, -, -, tx, -, -, hle, hv⟩ := ok1 m fd hm
  obtain ⟨v, hf, s, acc, -⟩ := hv pos
  exact ⟨s.end_lt g1, v, s.writable g1 (tx.bears hf) hle (can.imp acc.write.mpr acc.copy.mpr)⟩

/-- Anonymous memory, and then a number in it. -/
example : ∃ w' m, (winDir [] []).win.alloc ⟨.w64, true⟩ (Options.newMut.setLen (.exact 24)) = .ok (w', .ok m) ∧
    m.len = 24 ∧ ∃ w'', WinSpan.writeUnaligned ⟨.w64, true⟩ ⟨true, fun _ => 8⟩ w' m.span .u64 3 77 = .ok w'' ∧
      WinSpan.readUnaligned ⟨.w64, true⟩ ⟨true, fun _ => 8⟩ w'' m.span .u64 3 = .ok 77 := by
  obtain ⟨w', r, e, -, ok⟩ := C166_alloc (t := ⟨.w64, true⟩) (winDir_good [] []) (o := Options.newMut.setLen (.exact 24)) rfl
    (by show 0 % 4096 + 24 < _; decide)
  have hr : ∃ m, r = .ok m ∧ m.len = 24 := by
    have : ∃ w'' m, (winDir [] []).win.alloc ⟨.w64, true⟩ (Options.newMut.setLen (.exact 24)) = .ok (w'', .ok m) ∧ m.len = 24 :=
      ⟨_, _, rfl, rfl⟩
    obtain ⟨w'', m, h, hl⟩ := this
    rw [e] at h
    injection h with h; injection h with _ h
    exact ⟨m, h, hl⟩
  obtain ⟨m, rfl, hl⟩ := hr
  obtain ⟨fit, view, w⟩ := ok m rfl (by omega)
  obtain ⟨w'', h1, h2, -⟩ := C166_unaligned ⟨.w64, true⟩ ⟨true, fun _ => 8⟩ w' m.span w fit .u64 3 77 (by decide)
    (by show 3 + 8 ≤ m.len; omega)
  exact ⟨w', m, e, hl, w'', h1, h2⟩

/-- A copy-on-write map of a file: the hypotheses of `C166_open`. -/
example : Fits ⟨.w64, true⟩ (((Options.newMut.setOffset 29).setLen (.exact 30)).copy) ∧
    WinFileHas (winDir [] DocMap.about) "data" DocMap.about ∧
    (((Options.newMut.setOffset 29).setLen (.exact 30)).copy).protect = .readCopy :=
  ⟨⟨trivial, lim_small, lim_small⟩, winDir_has _ _, rfl⟩

end Vmap

import Verif.Proofs.Span
import Verif.Spec.DemoMap
/-
Property theorems C46, C47, C48: scalar access to spans (`Span`, `SpanMut`).

A span's memory is given by `MapsAll`: the bytes `[ptr, ptr+len)` are mapped, shared or
privately, which is what creating a map guarantees (C33, C37) and what every later
operation keeps (C75).
-/
namespace Vmap
open Kernel Spec

/-- C46, sizes: the bytes of a value of type `T` are exactly enough to tell its values apart. -/
theorem C46_size (t : Target) (ty : Scalar) : 256 ^ ty.size t = ty.count t := by
  obtain ⟨w, c⟩ := t
  cases w <;> cases ty <;> simp [Scalar.size, Scalar.count, Target.lim, Width.bits]

example : Scalar.usize.count ⟨.w32, true⟩ = 4294967296 ∧
    Scalar.usize.count ⟨.w64, true⟩ = 18446744073709551616 := ⟨rfl, rfl⟩

/-- C46 for unaligned accesses: an in-range write succeeds; reading the same place returns the
value; the bytes written are the value's native representation; all other bytes of the span
keep their value. -/
theorem C46_unaligned (t : Target) (abi : Abi) (k : Kernel) (w : Wf t k) (s : Span)
    (o : Obj) (foff : Nat) (sh mw : Bool) (prot : Prot)
    (m : k.MapsAll s.ptr s.len o foff sh mw prot) (hr : prot.r = true) (hw : prot.w = true)
    (ty : Scalar) (off v : Nat) (hv : v < 256 ^ ty.size t) (hin : off + ty.size t ≤ s.len) :
    ∃ k', s.writeUnaligned t abi k ty off v = .ok k' ∧
      s.readUnaligned t abi k' ty off = .ok v ∧
      (∀ i, i < ty.size t →
        k'.load (s.ptr + off + i) = .ok (UInt8.ofNat (nativeByte abi.bigEndian (ty.size t) v i))) ∧
      (∀ i, i < s.len → (i < off ∨ off + ty.size t ≤ i) →
        k'.load (s.ptr + i) = k.load (s.ptr + i)) ∧
      Wf t k' ∧ k'.MapsAll s.ptr s.len o foff sh mw prot := by
  have hsz := Scalar.size_pos t ty
  have hf := m.fits w (by omega)
  have hel := encode_length abi (ty.size t) v
  obtain ⟨k', e1, s1⟩ := storeN_maps (abi.encode (ty.size t) v) k off w m hr hw (by omega)
  have hcap := assertCapacity_ok hin (by omega : s.len < t.lim)
  have hpa : ptrAdd t s.ptr off = s.ptr + off := ptrAdd_eq (by omega)
  have bytes : ∀ i, i < ty.size t →
      k'.load (s.ptr + off + i) = .ok ((abi.encode (ty.size t) v).getD i 0) := by
    intro i hi
    rw [Nat.add_assoc, s1.load (off + i) (by omega), if_pos (by omega),
      show off + i - off = i by omega]
  refine ⟨k', ?_, ?_, ?_, ?_, s1.wf, s1.maps⟩
  · simp only [Span.writeUnaligned, hcap, hpa, bind, Except.bind, e1]
  · have := loadN_eq (k := k') (abi.encode (ty.size t) v) (s.ptr + off)
      (fun i hi => bytes i (by omega))
    rw [hel] at this
    simp only [Span.readUnaligned, hcap, hpa, bind, Except.bind, this, pure, Except.pure]
    rw [decode_encode abi _ v hv]
  · intro i hi
    rw [bytes i hi, encode_get abi _ v i hi]
  · intro i hi ho
    rw [s1.load i hi, if_neg (by omega)]

/-- C46 for volatile accesses at an aligned place: they do what the unaligned ones do. -/
theorem C46_volatile (t : Target) (abi : Abi) (k : Kernel) (w : Wf t k) (s : Span)
    (o : Obj) (foff : Nat) (sh mw : Bool) (prot : Prot)
    (m : k.MapsAll s.ptr s.len o foff sh mw prot) (hr : prot.r = true) (hw : prot.w = true)
    (ty : Scalar) (off v : Nat) (hv : v < 256 ^ ty.size t) (hin : off + ty.size t ≤ s.len)
    (hal : abi.align ty ∣ s.ptr + off) :
    ∃ k', s.writeVolatile t abi k ty off v = .ok k' ∧
      s.writeUnaligned t abi k ty off v = .ok k' ∧
      s.readVolatile t abi k' ty off = .ok v := by
  obtain ⟨k', h1, h2, -⟩ := C46_unaligned t abi k w s o foff sh mw prot m hr hw ty off v hv hin
  have hsz := Scalar.size_pos t ty
  have hf := m.fits w (by omega)
  have hpa : ptrAdd t s.ptr off = s.ptr + off := ptrAdd_eq (by omega)
  have ha : assertAlignment t abi ty off s.ptr = .ok () := by
    simp only [assertAlignment, hpa]
    rw [if_neg (by simpa using Nat.mod_eq_zero_of_dvd hal)]
  refine ⟨k', ?_, h1, ?_⟩
  · rw [← h1]
    simp only [Span.writeVolatile, Span.writeUnaligned, ha, bind, Except.bind]
  · rw [← h2]
    simp only [Span.readVolatile, Span.readUnaligned, ha, bind, Except.bind]

/-- C46 for maps as spans: a value that lies within a map is written and read back through the
map, and through the same map made read-only; one that does not lie within it is refused by
both (for ends that are a `usize`, as in C47); and the map is empty iff its length is zero. -/
theorem C46_maps (t : Target) (abi : Abi) (k : Kernel) (w : Wf t k) (m : MapMut)
    (o : Obj) (foff : Nat) (sh mw : Bool) (prot : Prot)
    (ma : k.MapsAll m.ptr m.len o foff sh mw prot) (hr : prot.r = true) (hw : prot.w = true)
    (ty : Scalar) (off v : Nat) (hv : v < 256 ^ ty.size t) (hend : off + ty.size t < t.lim) :
    (off + ty.size t ≤ m.len →
      ∃ k', m.span.writeUnaligned t abi k ty off v = .ok k' ∧
        m.span.readUnaligned t abi k' ty off = .ok v ∧
        (Map.mk m).span.readUnaligned t abi k' ty off = .ok v ∧
        (∀ i, i < ty.size t →
          k'.load (m.ptr + off + i) = .ok (UInt8.ofNat (nativeByte abi.bigEndian (ty.size t) v i)))) ∧
    (m.len < off + ty.size t →
      m.span.writeUnaligned t abi k ty off v = .error .panic ∧
      m.span.readUnaligned t abi k ty off = .error .panic ∧
      (Map.mk m).span.readUnaligned t abi k ty off = .error .panic) ∧
    (m.span.isEmpty = true ↔ m.len = 0) ∧ ((Map.mk m).span.isEmpty = true ↔ m.len = 0) := by
  refine ⟨fun hin => ?_, fun hout => ?_, by simp [Span.isEmpty, MapMut.span],
    by simp [Span.isEmpty, Map.span]⟩
  · obtain ⟨k', h1, h2, h3, -⟩ := C46_unaligned t abi k w m.span o foff sh mw prot ma hr hw ty off v hv hin
    exact ⟨k', h1, h2, h2, h3⟩
  · have h := assertCapacity_panic (t := t) (ty := ty) (len := m.len) hout (.inl hend)
    simp [Span.readUnaligned, Span.writeUnaligned, MapMut.span, Map.span, h, bind, Except.bind]

/-- The hypotheses of C46 are met by a `u64` at offset 2 of a map of the demo file (and, with
alignments at most 1, also those for volatile accesses). -/
example : ∃ (k : Kernel) (s : Span), Wf ⟨.w64, true⟩ k ∧ k.MapsAll s.ptr s.len 0 5 true true ⟨true, true, false⟩ ∧
    2 + Scalar.u64.size ⟨.w64, true⟩ ≤ s.len ∧ 258 < 256 ^ Scalar.u64.size ⟨.w64, true⟩ :=
  ⟨demoMap true true ⟨true, true, false⟩, ⟨4096005, 8000⟩, demoMap_wf _ _ _, demoMap_maps _ _ _,
    by decide, by decide⟩

/-- Both alignments occur on that map: a `u64` at offset 3 is aligned, one at offset 2 is not. -/
example : 8 ∣ (4096005 + 3) ∧ ¬ 8 ∣ (4096005 + 2) := by decide

/-- C47, as far as it is true: accesses that end beyond the span panic, provided the end does
not wrap around `usize` or the build checks for overflow.  The result does not depend on
memory at all.  Missing: release builds with wrapping offsets, see `C47_false`. -/
theorem C47_out_of_range_panics_partial (t : Target) (abi : Abi) (s : Span) (ty : Scalar)
    (off v : Nat) (hout : s.len < off + ty.size t)
    (hwrap : off + ty.size t < t.lim ∨ t.checks = true) :
    ∀ k, s.readVolatile t abi k ty off = .error .panic ∧
      s.readUnaligned t abi k ty off = .error .panic ∧
      s.writeVolatile t abi k ty off v = .error .panic ∧
      s.writeUnaligned t abi k ty off v = .error .panic := by
  intro k
  have h := assertCapacity_panic hout hwrap
  simp [Span.readVolatile, Span.readUnaligned, Span.writeVolatile, Span.writeUnaligned, h, bind,
    Except.bind]

/-- The hypotheses of C47: a `u16` at the last byte of an 8-byte span, any build. -/
example (t : Target) : (⟨4096, 8⟩ : Span).len < 7 + Scalar.u16.size t ∧
    (7 + Scalar.u16.size t < t.lim ∨ t.checks = true) := by
  have := t.lim_cases
  simp only [Scalar.size]
  exact ⟨by omega, .inl (by omega)⟩

/-- What a release build does with an offset whose end wraps around: it accesses memory
*below* the span. -/
theorem C47_wraps_below (t : Target) (hc : t.checks = false) (abi : Abi) (k : Kernel) (s : Span)
    (ty : Scalar) (off v : Nat) (hoff : off < t.lim) (hptr : s.ptr < t.lim)
    (hwrap : t.lim ≤ off + ty.size t) (hlen : off + ty.size t - t.lim ≤ s.len)
    (hp : t.lim ≤ s.ptr + off) :
    s.readUnaligned t abi k ty off =
      (k.loadN (s.ptr - (t.lim - off)) (ty.size t)).map abi.decode ∧
    s.writeUnaligned t abi k ty off v =
      k.storeN (s.ptr - (t.lim - off)) (abi.encode (ty.size t) v) := by
  have hsz : ty.size t ≤ 16 := by
    rcases t with ⟨w, c⟩
    cases w <;> cases ty <;> simp [Scalar.size, Width.bits]
  have hlim : 16 < t.lim := by have := t.lim_cases; omega
  have hadd : addU t off (ty.size t) = .ok (off + ty.size t - t.lim) := by
    rw [addU_wrap (by omega) hc, Nat.mod_eq_sub_mod hwrap, Nat.mod_eq_of_lt (by omega)]
  have hcap : assertCapacity t ty off s.len = .ok () := by
    simp only [assertCapacity, bind, Except.bind, hadd]
    rw [if_neg (by omega)]
  have hpa : ptrAdd t s.ptr off = s.ptr - (t.lim - off) := by
    simp only [ptrAdd, asUsize]
    rw [Nat.mod_eq_sub_mod hp, Nat.mod_eq_of_lt (by omega)]
    omega
  constructor
  · simp only [Span.readUnaligned, hcap, hpa, bind, Except.bind]
    cases k.loadN (s.ptr - (t.lim - off)) (ty.size t) <;> rfl
  · simp only [Span.writeUnaligned, hcap, hpa, bind, Except.bind]

/-- The full statement of C47. -/
def C47_full : Prop :=
  ∀ (t : Target) (abi : Abi) (k : Kernel) (s : Span) (ty : Scalar) (off : Nat),
    off < t.lim → s.len < t.lim → s.len < off + ty.size t →
    s.readUnaligned t abi k ty off = .error .panic

/-- C47 is false of release builds: reading a `u16` at `usize::MAX` from an 8-byte span does
not panic but accesses memory (here: unmapped memory just below the span). -/
theorem C47_false : ¬ C47_full := by
  intro h
  have h1 := h ⟨.w64, false⟩ ⟨false, fun _ => 1⟩ (demo 0) ⟨4096, 8⟩ .u16 (2 ^ 64 - 1)
    (by decide) (by decide) (by decide)
  have h2 := (C47_wraps_below ⟨.w64, false⟩ rfl ⟨false, fun _ => 1⟩ (demo 0) ⟨4096, 8⟩ .u16
    (2 ^ 64 - 1) 0 (by decide) (by decide) (by decide) (by decide) (by decide)).1
  rw [h2] at h1
  have : (demo 0).loadN (4096 - ((⟨.w64, false⟩ : Target).lim - (2 ^ 64 - 1)))
      (Scalar.u16.size ⟨.w64, false⟩) = .error .memory := rfl
  simp only at h1
  rw [this] at h1
  cases h1

/-- C48: an in-range volatile access panics exactly when its address is not a multiple of the
scalar's alignment. -/
theorem C48_volatile_alignment (t : Target) (abi : Abi) (k : Kernel) (w : Wf t k) (s : Span)
    (o : Obj) (foff : Nat) (sh mw : Bool) (prot : Prot)
    (m : k.MapsAll s.ptr s.len o foff sh mw prot) (hr : prot.r = true)
    (ty : Scalar) (off v : Nat) (hv : v < 256 ^ ty.size t) (hin : off + ty.size t ≤ s.len) :
    (s.readVolatile t abi k ty off = .error .panic ↔ ¬ abi.align ty ∣ s.ptr + off) ∧
    (prot.w = true →
      (s.writeVolatile t abi k ty off v = .error .panic ↔ ¬ abi.align ty ∣ s.ptr + off)) := by
  have hsz := Scalar.size_pos t ty
  have hf := m.fits w (by omega)
  have hcap := assertCapacity_ok hin (by omega : s.len < t.lim)
  have hpa : ptrAdd t s.ptr off = s.ptr + off := ptrAdd_eq (by omega)
  by_cases hal : abi.align ty ∣ s.ptr + off
  · have ha : assertAlignment t abi ty off s.ptr = .ok () := by
      simp only [assertAlignment, hpa]
      rw [if_neg (by simpa using Nat.mod_eq_zero_of_dvd hal)]
    constructor
    · obtain ⟨bs, hbs, -⟩ := loadN_maps (k := k) (ty.size t) (s.ptr + off) (fun i hi => by
        rw [Nat.add_assoc]; exact (m (off + i) (by omega)).load_ok hr)
      simp only [Span.readVolatile, hcap, hpa, ha, bind, Except.bind, hbs, pure, Except.pure]
      constructor
      · intro h; cases h
      · intro h; exact absurd hal h
    · intro hw
      obtain ⟨k', h1, -⟩ := C46_volatile t abi k w s o foff sh mw prot m hr hw ty off v hv hin hal
      rw [h1]
      constructor
      · intro h; cases h
      · intro h; exact absurd hal h
  · have ha : assertAlignment t abi ty off s.ptr = .error .panic := by
      simp only [assertAlignment, hpa]
      rw [if_pos (fun h => hal (Nat.dvd_of_mod_eq_zero h))]
    simp [Span.readVolatile, Span.writeVolatile, hcap, ha, bind, Except.bind, hal]

/-- C48: unaligned accesses never panic in range. -/
theorem C48_unaligned_never_panics (t : Target) (abi : Abi) (k : Kernel) (w : Wf t k) (s : Span)
    (o : Obj) (foff : Nat) (sh mw : Bool) (prot : Prot)
    (m : k.MapsAll s.ptr s.len o foff sh mw prot) (hr : prot.r = true)
    (ty : Scalar) (off v : Nat) (hv : v < 256 ^ ty.size t) (hin : off + ty.size t ≤ s.len) :
    (∃ x, s.readUnaligned t abi k ty off = .ok x) ∧
    (prot.w = true → ∃ k', s.writeUnaligned t abi k ty off v = .ok k') := by
  have hsz := Scalar.size_pos t ty
  have hf := m.fits w (by omega)
  have hcap := assertCapacity_ok hin (by omega : s.len < t.lim)
  have hpa : ptrAdd t s.ptr off = s.ptr + off := ptrAdd_eq (by omega)
  constructor
  · obtain ⟨bs, hbs, -⟩ := loadN_maps (k := k) (ty.size t) (s.ptr + off) (fun i hi => by
      rw [Nat.add_assoc]; exact (m (off + i) (by omega)).load_ok hr)
    exact ⟨abi.decode bs, by
      simp only [Span.readUnaligned, hcap, hpa, bind, Except.bind, hbs, pure, Except.pure]⟩
  · intro hw
    obtain ⟨k', h1, -⟩ := C46_unaligned t abi k w s o foff sh mw prot m hr hw ty off v hv hin
    exact ⟨k', h1⟩

end Vmap

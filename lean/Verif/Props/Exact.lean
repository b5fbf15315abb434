import Verif.Props.InfiniteRing
import Verif.Props.Size
import Verif.Props.Options
import Verif.Props.MapUse
import Verif.Props.MapMake
import Verif.Proofs.MapIfAll
/-
Exact behaviour where a property is false: what happens in *every* case outside the one that the
`_partial` theorem covers (C04, C24, C32, C35, C37, C70, C72, C76).
-/
namespace Vmap
open Kernel Spec

/-! ### C04 and C70: `Size::round` near the top of the address space -/

/-- C04: in a release build, rounding a length for which `len + unit` exceeds the address space always
gives 0. -/
theorem C04_round_zero (t : Target) (k len : Nat) (hk : k < t.width.bits) (hl : len < t.lim)
    (hc : t.checks = false) (h : t.lim < len + 2 ^ k) :
    (Size.withSize (2 ^ k)).round t len = .ok 0 := by
  have hu := Nat.two_pow_pos k
  have hul : 2 ^ k < t.lim := by
    have := Nat.pow_lt_pow_right (a := 2) (by omega) hk
    exact this
  unfold Size.round
  have hadd : addU t len (Size.withSize (2 ^ k)).unit = .ok (len + 2 ^ k - t.lim) := by
    have := addU_wrap (t := t) (a := len) (b := 2 ^ k) (by omega) hc
    rw [Nat.mod_eq_sub_mod (by omega), Nat.mod_eq_of_lt (by omega)] at this
    exact this
  simp only [bind, Except.bind]
  rw [hadd]
  simp only
  rw [subU_ok (by omega)]
  simp only
  rw [truncate_eq hk (by omega), Nat.div_eq_of_lt (by omega), Nat.zero_mul]

/-- C04, exactly: `round` returns less than its argument if and only if it is a release build and
`len + unit` exceeds the address space. -/
theorem C04_iff (t : Target) (k len : Nat) (hk : k < t.width.bits) (hl : len < t.lim) :
    (∃ r, (Size.withSize (2 ^ k)).round t len = .ok r ∧ r < len) ↔
      (t.checks = false ∧ t.lim < len + 2 ^ k) := by
  have hul : 2 ^ k < t.lim := Nat.pow_lt_pow_right (a := 2) (by omega) hk
  constructor
  · rintro ⟨r, h1, h2⟩
    by_cases h : t.checks = false → len + 2 ^ k ≤ t.lim
    · have := C04_round_not_below_partial t k len r hk hl h h1
      omega
    · cases hc : t.checks with
      | true => exact absurd (fun h' => by rw [hc] at h'; cases h') h
      | false => exact ⟨rfl, Nat.lt_of_not_le (fun h' => h (fun _ => h'))⟩
  · rintro ⟨h1, h2⟩
    exact ⟨0, C04_round_zero t k len hk hl h1 h2, by omega⟩

/-- C70, exactly: a debug build panics if and only if `len + unit` does not fit `usize`. -/
theorem C70_iff (t : Target) (k len : Nat) (hk : k < t.width.bits) :
    (Size.withSize (2 ^ k)).round t len = .error .panic ↔
      (t.checks = true ∧ t.lim ≤ len + 2 ^ k) := by
  constructor
  · intro h
    by_cases hf : len + 2 ^ k < t.lim
    · rw [round_eq hk hf] at h; cases h
    · refine ⟨?_, by omega⟩
      cases hc : t.checks with
      | true => rfl
      | false =>
        exfalso
        unfold Size.round at h
        have hadd : addU t len (Size.withSize (2 ^ k)).unit = .ok ((len + 2 ^ k) % t.lim) :=
          addU_wrap hf hc
        have hlp := t.lim_pos
        simp only [bind, Except.bind] at h
        rw [hadd] at h
        simp only at h
        have hsub : ∃ b, b < t.lim ∧ subU t ((len + 2 ^ k) % t.lim) 1 = .ok b := by
          have hm := Nat.mod_lt (len + 2 ^ k) hlp
          by_cases h1 : 1 ≤ (len + 2 ^ k) % t.lim
          · exact ⟨_, by omega, subU_ok h1⟩
          · refine ⟨((len + 2 ^ k) % t.lim + t.lim - 1) % t.lim, Nat.mod_lt _ hlp, ?_⟩
            simp only [subU, subL]; rw [if_neg h1, hc]; rfl
        obtain ⟨b, hb, hb2⟩ := hsub
        rw [hb2] at h
        simp only at h
        rw [truncate_eq hk hb] at h
        cases h
  · rintro ⟨h1, h2⟩
    exact round_panic (by omega) h1

example : (12 < Width.w64.bits) ∧ 2 ^ 64 - 2 < (Target.mk .w64 false).lim ∧
    (Target.mk .w64 false).lim < 2 ^ 64 - 2 + 2 ^ 12 := by decide

/-! ### C72: storing into the write slice of an infinite ring -/

/-- C72, exactly: storing `bs` (up to the whole capacity) into the write slice leaves the newest
readable bytes alone, and what exceeds the free part replaces the oldest readable bytes. -/
theorem C72_exact (t : Target) (k : Kernel) (r : InfiniteRing) (n : Nat)
    (h : InfAt t k r n) (q bs : List Byte) (hq : r.fillBuf t k = .ok q)
    (hb : bs.length ≤ SeqWrite.writeCapacity r) :
    ∃ k', poke t k r bs = .ok k' ∧
      r.fillBuf t k' = .ok (bs.drop (SeqWrite.writeCapacity r - q.length) ++
        q.drop (bs.length - (SeqWrite.writeCapacity r - q.length))) := by
  obtain ⟨o, s, h1, h2, h3, h4⟩ := h.inv
  rw [h1.fillBuf_eq] at hq
  injection hq with hq
  subst hq
  simp only [SeqWrite.writeCapacity] at hb ⊢
  have hl := h1.len_eq
  have hlt := h1.len_lt
  have ha := h1.all_len
  obtain ⟨k', e, sd, d, h'⟩ := h1.poked bs hb
  refine ⟨k', ?_, ?_⟩
  · simp only [poke, h1.asWriteSlice_eq, bind, Except.bind]
    rw [List.take_of_length_le (by simp only [Target.usizeMax]; omega), e]
  · rw [h'.fillBuf_eq, show r.len - s.q.length = s.old.length by omega]
    simp only []
    congr 1
    rw [List.drop_append, List.drop_drop]
    congr 1
    rw [show s.all = s.old ++ s.q from rfl, List.drop_append, List.drop_eq_nil_of_le (by omega),
      List.nil_append]
    congr 1
    omega

-- a ring of 4096 bytes with one readable byte: storing 4096 bytes replaces it
example (c : Bool) : ∃ k r q, InfAt ⟨.w64, c⟩ k r 1 ∧ r.fillBuf ⟨.w64, c⟩ k = .ok q ∧
    q.length = 1 ∧ (List.replicate 4096 (9 : Byte)).length ≤ SeqWrite.writeCapacity r := by
  obtain ⟨k, r, h, h1, h2, -⟩ := inf_one_byte c
  obtain ⟨o, s, hr, -⟩ := h.inv
  exact ⟨k, r, s.q, h, hr.fillBuf_eq, by rw [← hr.qlen, h2],
    by rw [List.length_replicate]; exact Nat.le_of_eq h1.symm⟩

/-! ### C24: `feed` with a huge argument -/

/-- C24, the case that fails: when `read_len() + m` exceeds `u64`, `feed(m)` panics in a debug build; in
a release build it adds nothing and instead discards the oldest bytes, leaving
`read_len() + m - 2^64` of them. -/
theorem C24_overflow (t : Target) (k : Kernel) (r : InfiniteRing) (n : Nat)
    (h : InfAt t k r n) (q : List Byte) (hq : r.fillBuf t k = .ok q) (m : Nat) (hmax : m < t.lim)
    (below : n + SeqWrite.writeCapacity r < posBound t (SeqWrite.writeCapacity r))
    (hm : 2 ^ 64 ≤ q.length + m) :
    (t.checks = true → r.feed t m = .error .panic) ∧
    (t.checks = false → ∃ r', r.feed t m = .ok r' ∧
      r'.fillBuf t k = .ok (lastN (q.length + m - 2 ^ 64) q)) := by
  obtain ⟨o, s, h1, h2, h3, h4⟩ := h.inv
  rw [h1.fillBuf_eq] at hq
  injection hq with hq
  subst hq
  simp only [SeqWrite.writeCapacity] at below
  have hl := h1.len_eq
  have hlt := h1.len_lt
  have ha := h1.all_len
  have h64 := lim_le_lim64 t
  have e64 : lim64 = 2 ^ 64 := rfl
  have hql := h1.qlen
  have hmin : min m r.len = r.len := by
    have : s.q.length ≤ r.len := by omega
    have hbig : 2 * r.len ≤ t.lim := by have := h1.mirror.fits; omega
    omega
  have hp : PosOk t r.len (r.wpos + min m r.len) :=
    posOk_of_lt (by rw [h1.total, h2, hmin]; exact below)
  have h5 := hp.1
  have hasm : asU64 m = m := Nat.mod_eq_of_lt (by omega)
  have start : r.feed t m = (do
      let s' ← add64 t s.q.length m
      return { r with wpos := r.wpos + min m r.len, rlen := min s' r.len }) := by
    rw [InfiniteRing.feed, InfiniteRing.writeLen]
    simp only [bind, Except.bind]
    rw [asU64_ok (t := t) (by omega : min m r.len < t.lim), add64_ok h5]
    simp only []
    rw [asU64_ok (t := t) hlt, hasm, hql]
  constructor
  · intro hc
    rw [start, add64, addL, if_neg (by omega), hc]
    rfl
  · intro hc
    have hadd : add64 t s.q.length m = .ok (s.q.length + m - 2 ^ 64) := by
      rw [add64, addL, if_neg (by omega), hc, Nat.mod_eq_sub_mod (by omega),
        Nat.mod_eq_of_lt (by omega)]
      rfl
    generalize hc' : s.q.length + m - 2 ^ 64 = c at hadd ⊢
    refine ⟨{ r with wpos := r.wpos + min m r.len, rlen := min c r.len },
      by rw [start, hadd]; rfl, ?_⟩
    have hcl : c < s.q.length := by omega
    have hf := h1.fed m hp
    have hwin := hf.all
    simp only at hwin
    have hall : (s.append (s.all.take m)).old ++ (s.append (s.all.take m)).q = s.all := by
      rw [hwin, hmin, show s.all = win k o r.len r.wpos from h1.all]
      rw [← win_mod k o r.len (r.wpos + r.len), Nat.add_mod_right, win_mod]
    have rep : InfRep t k { r with wpos := r.wpos + min m r.len, rlen := min c r.len } o
        ⟨s.all.take (r.len - c), s.all.drop (r.len - c), s.total + r.len⟩ := by
      refine ⟨hf.mirror, ?_, ?_, ?_, ?_, hf.pos⟩
      · simp only
        rw [List.take_append_drop, ← hwin, hall]
      · simp only [hmin, h1.total]
      · simp only [List.length_drop, ha]; omega
      · simp only; have := h1.le; omega
    rw [rep.fillBuf_eq]
    refine congrArg Except.ok ?_
    simp only [lastN]
    rw [show s.all = s.old ++ s.q from rfl, List.drop_append, List.drop_eq_nil_of_le (by omega),
      List.nil_append, show r.len - c - s.old.length = s.q.length - c by omega]

-- after `write(&[7])` on a 64-bit target, `feed(usize::MAX)` is such a call
example (c : Bool) : ∃ k r q, InfAt ⟨.w64, c⟩ k r 1 ∧ r.fillBuf ⟨.w64, c⟩ k = .ok q ∧
    2 ^ 64 - 1 < Target.lim ⟨.w64, c⟩ ∧
    1 + SeqWrite.writeCapacity r < posBound ⟨.w64, c⟩ (SeqWrite.writeCapacity r) ∧
    2 ^ 64 ≤ q.length + (2 ^ 64 - 1) := by
  obtain ⟨k, r, h, h1, h2, -⟩ := inf_one_byte c
  obtain ⟨o, s, hr, -⟩ := h.inv
  refine ⟨k, r, s.q, h, hr.fillBuf_eq, by simp [Target.lim, Width.bits], ?_, ?_⟩
  · simp [SeqWrite.writeCapacity, h1, posBound, Target.lim, Width.bits, lim64]
  · rw [← hr.qlen, h2]; decide

/-! ### C32 and C35: files of any length -/

/-- C32, for files of every length: `map_if` decides exactly as if the file had `len mod 2^bits`
bytes.  (This is C32 for files shorter than the address space, so on all 64-bit targets.) -/
theorem C32_exact (tab : SysTable) (t : Target) (k : Kernel) (w : Wf t k)
    (o : Options) (hfit : Fits t o) (fd : Nat) (f : Fd) (hf : k.fds fd = some f) (seen : Nat)
    (hseen : seen = k.size f.obj % 2 ^ t.width.bits) :
    ∃ k' r l, o.mapIf tab t k fd = .ok (k', r) ∧ k'.log = l ++ k.log ∧
      (¬ InRange (newLen o.truncate o.resize seen) o.offset o.len →
        r = .ok none ∨ ∃ e, r = .error e ∧ LengthError tab l o.resize e) ∧
      (InRange (newLen o.truncate o.resize seen) o.offset o.len →
        (∃ m, r = .ok (some m) ∧
          m.len = wanted (newLen o.truncate o.resize seen) o.offset o.len) ∨
        (∃ e, r = .error e ∧ LengthError tab l o.resize e) ∨
        (∃ c errno rest, r = .error ⟨.system (.os errno), .mapFile⟩ ∧
          l = ⟨c, .error errno⟩ :: rest ∧ ∃ n p fl off, c = .mmap 0 n p fl (some fd) off)) := by
  subst hseen
  rcases prep_all tab hfit hf with ⟨k1, e, l, h1, h2, h3, h4, h5⟩ | ⟨k1, l, h1, h2, h3, h4, h5, h6⟩
  · exact ⟨k1, _, l, h1, h3, fun _ => .inr ⟨e, rfl, h5⟩, fun _ => .inr (.inl ⟨e, rfl, h5⟩)⟩
  · have w1 : Wf t k1 := h2.wf w
    rcases mapStep_cases w1 (fd := fd) hfit h4 with ⟨g1, g2⟩ | ⟨g1, e, g2⟩ |
      ⟨g1, p, f', g2, g3, g4, g5, g6, g7, g8, g9⟩
    · exact ⟨k1, _, l, h1.trans g2, h5, fun _ => .inl rfl, fun h => absurd h g1⟩
    · exact ⟨_, _, _ :: l, h1.trans g2, by dsimp only; rw [h5]; rfl, fun h => absurd g1 h,
        fun _ => .inr (.inr ⟨_, e, l, rfl, rfl, _, _, _, _, rfl⟩)⟩
    · exact ⟨_, _, _ :: l, h1.trans g9, by dsimp only; rw [h5]; rfl, fun h => absurd g1 h,
        fun _ => .inl ⟨_, rfl, rfl⟩⟩

/-- C35, for files of every length: the length the file has afterwards, unless asking for or setting
it failed. -/
theorem C35_exact (tab : SysTable) (t : Target) (k : Kernel) (w : Wf t k)
    (o : Options) (hfit : Fits t o) (fd : Nat) (f : Fd) (hf : k.fds fd = some f) (seen : Nat)
    (hseen : seen = k.size f.obj % 2 ^ t.width.bits) :
    ∃ k' r l, o.mapIf tab t k fd = .ok (k', r) ∧ k'.log = l ++ k.log ∧
      ((∃ e, r = .error e ∧ LengthError tab l o.resize e) ∨
        Resized k k' f.obj (cutLen o.truncate (k.size f.obj) seen)
          (leftLen o.truncate o.resize (k.size f.obj) seen)) := by
  subst hseen
  rcases prep_all tab hfit hf with ⟨k1, e, l, h1, h2, h3, h4, h5⟩ | ⟨k1, l, h1, h2, h3, h4, h5, h6⟩
  · exact ⟨k1, _, l, h1, h3, .inl ⟨e, rfl, h5⟩⟩
  · have w1 : Wf t k1 := h2.wf w
    rcases mapStep_cases w1 (fd := fd) hfit h4 with ⟨g1, g2⟩ | ⟨g1, e, g2⟩ |
      ⟨g1, p, f', g2, g3, g4, g5, g6, g7, g8, g9⟩
    · exact ⟨k1, _, l, h1.trans g2, h5, .inr h3⟩
    · exact ⟨_, _, _ :: l, h1.trans g2, by dsimp only; rw [h5]; rfl,
        .inr ⟨h3.size, h3.kept, h3.zero⟩⟩
    · exact ⟨_, _, _ :: l, h1.trans g9, by dsimp only; rw [h5]; rfl,
        .inr ⟨h3.size, h3.kept, h3.zero⟩⟩

-- a file of 4 GiB + 100 bytes on a 32-bit target: it looks 100 bytes long; `resize(Min(200))` cuts
-- it to 200 bytes; a file of exactly 4 GiB is not truncated
example : bigFile.fds 3 = some ⟨0, true, true⟩ ∧
    100 = bigFile.size 0 % 2 ^ (Target.mk .w32 false).width.bits ∧
    leftLen false (.min 200) (bigFile.size 0) 100 = 200 ∧
    leftLen true .endOf (2 ^ 32) 0 = 2 ^ 32 ∧ newLen true .endOf 0 = 0 := by decide

/-- On files shorter than the address space this is the length asked for. -/
theorem C35_left_small (trunc : Bool) (resize : Extent) (size : Nat) :
    leftLen trunc resize size size = newLen trunc resize size := by
  have hb : cutLen trunc size size = if trunc then 0 else size := by
    cases trunc
    · simp [cutLen]
    · simp only [cutLen, true_and, if_true]
      split <;> omega
  cases resize with
  | exact n => rfl
  | endOf => exact hb
  | min n =>
    simp only [leftLen, newLen, hb]
    generalize (if trunc then 0 else size) = b
    split
    · exact (Nat.max_eq_left (by omega)).symm
    · exact (Nat.max_eq_right (by omega)).symm
  | max n =>
    simp only [leftLen, newLen, hb]
    generalize (if trunc then 0 else size) = b
    split
    · exact (Nat.min_eq_left (by omega)).symm
    · exact (Nat.min_eq_right (by omega)).symm

/-! ### C37: allocations larger than the address space in a release build -/

/-- C37, the sizes that do not fit, in release builds: `alloc` does not panic, and if it succeeds it
has mapped a single page, whatever was asked for: with an exact or maximal length `l` the map
claims to have `l` bytes, with a minimal length it has fewer than `l`. -/
theorem C37_release {t : Target} (hc : t.checks = false) {k : Kernel} (w : Wf t k) {o : Options}
    (hfit : Fits t o) (hf : ¬ AllocFits t k.page (o.offset % k.page) o.len) :
    ∃ k' r, o.alloc t k = .ok (k', r) ∧ ∀ m, r = .ok m →
      (∃ p, m.ptr = p * k.page + o.offset % k.page ∧ k.pt p = none ∧ (∃ e, k'.pt p = some e) ∧
        k'.page = k.page ∧ ∀ q, q ≠ p → k'.pt q = k.pt q) ∧
      (∀ l, o.len = .exact l ∨ o.len = .max l → m.len = l ∧ k.page < m.len ∧
        t.lim < o.offset % k.page + m.len) ∧
      (∀ l, o.len = .min l → m.len + o.offset % k.page = k.page ∧ m.len < l) := by
  have hpp := w.page_pos
  obtain ⟨s, hs, hs2⟩ := w.page
  have hlp := t.lim_pos
  have hup : k.page * 2 ≤ t.lim := by
    have h1 : (2:Nat) ^ (s + 1) ≤ 2 ^ t.width.bits := Nat.pow_le_pow_right (by omega) (by omega)
    rw [Nat.pow_succ] at h1
    rw [hs]; exact h1
  have hoff : (Size.page k).offset t o.offset = .ok (o.offset % k.page) := by
    rw [sizePage_eq, hs]; exact offset_eq
  have hd : o.offset % k.page < k.page := Nat.mod_lt _ hpp
  generalize o.offset % k.page = d at *
  -- the end of `alloc`, when less than a page is asked for
  have fin : ∀ n len, n ≤ k.page →
      ∃ k' r, (match Unix.mapAnon t k n o.protect with
        | (k, .error e) => (.ok (k, .error e) : Exec (Kernel × Result MapMut))
        | (k, .ok ptr) => .ok (k, .ok (MapMut.fromPtr (ptrAdd t ptr d) len))) = .ok (k', r) ∧
      ∀ m, r = .ok m → n ≠ 0 ∧ m.len = len ∧
        ∃ p, m.ptr = p * k.page + d ∧ k.pt p = none ∧ (∃ e, k'.pt p = some e) ∧
          k'.page = k.page ∧ ∀ q, q ≠ p → k'.pt q = k.pt q := by
    intro n len hn
    rcases mapAnon_cases t k n o.protect with ⟨e, he⟩ | ⟨p, h1, h2, h3, h4, h5, he⟩
    · rw [he]; exact ⟨_, _, rfl, fun m h => by cases h⟩
    · rw [he]
      refine ⟨_, _, rfl, fun m h => ?_⟩
      injection h with h
      subst h
      have hpg : k.pages n = 1 := by
        show (n + k.page - 1) / k.page = 1
        rw [Nat.div_eq_of_lt_le] <;> omega
      rw [hpg] at h4 h5
      refine ⟨h2, rfl, p, ?_, h5 p (by omega) (by omega), ?_, ?_, ?_⟩
      · show ptrAdd t (p * k.page) d = _
        rw [Nat.add_mul] at h4
        exact Nat.mod_eq_of_lt (by omega)
      · simp only [anonState, mappedPt, hpg]
        rw [if_pos (by omega)]
        exact ⟨_, rfl⟩
      · rfl
      · intro q hq
        simp only [anonState, mappedPt, hpg]
        rw [if_neg (by omega)]
  simp only [Options.alloc, bind, Except.bind, hoff]
  have hlen := hfit.len
  have exactCase : ∀ l, l < t.lim → ¬ (d + l < t.lim) →
      ∃ n, n < d ∧ addU t d l = .ok n ∧ k.page < l ∧ n + t.lim = d + l := by
    intro l hl hbig
    refine ⟨d + l - t.lim, by omega, ?_, by omega, by omega⟩
    rw [addU_wrap hbig hc, Nat.mod_eq_sub_mod (by omega), Nat.mod_eq_of_lt (by omega)]
  cases hl : o.len with
  | endOf => rw [hl] at hf; exact absurd trivial hf
  | exact l =>
    rw [hl] at hf hlen
    obtain ⟨n, h1, h2, h3, h4⟩ := exactCase l hlen hf
    simp only [Options.allocLen, pure, Except.pure, h2]
    obtain ⟨k', r, e, h⟩ := fin n l (by omega)
    refine ⟨k', r, e, fun m hm => ?_⟩
    obtain ⟨a0, a, b⟩ := h m hm
    refine ⟨b, fun l' hl' => ?_, fun l' hl' => by cases hl'⟩
    rcases hl' with hl' | hl' <;> cases hl'
    exact ⟨a, by omega, by omega⟩
  | max l =>
    rw [hl] at hf hlen
    obtain ⟨n, h1, h2, h3, h4⟩ := exactCase l hlen hf
    simp only [Options.allocLen, pure, Except.pure, h2]
    obtain ⟨k', r, e, h⟩ := fin n l (by omega)
    refine ⟨k', r, e, fun m hm => ?_⟩
    obtain ⟨a0, a, b⟩ := h m hm
    refine ⟨b, fun l' hl' => ?_, fun l' hl' => by cases hl'⟩
    rcases hl' with hl' | hl' <;> cases hl'
    exact ⟨a, by omega, by omega⟩
  | min l =>
    rw [hl] at hf hlen
    have hf : ¬ (d + l + k.page < t.lim) := hf
    have hlen : l < t.lim := hlen
    have zero : ∀ len, ∃ k' r, (match Unix.mapAnon t k 0 o.protect with
            | (k, .error e) => (.ok (k, .error e) : Exec (Kernel × Result MapMut))
            | (k, .ok ptr) => .ok (k, .ok (MapMut.fromPtr (ptrAdd t ptr d) len))) = .ok (k', r) ∧
        ∀ m, r ≠ .ok m := by
      intro len
      obtain ⟨k', r, e, h⟩ := fin 0 len (by omega)
      exact ⟨k', r, e, fun m hm => (h m hm).1 rfl⟩
    have wrap0 : ∃ len, subU t 0 d = .ok len ∧ addU t d len = .ok 0 := by
      by_cases hd0 : d = 0
      · subst hd0; exact ⟨0, subU_ok (Nat.le_refl _), addU_ok (by omega)⟩
      · refine ⟨t.lim - d, ?_, ?_⟩
        · simp only [subU, subL]
          rw [if_neg (by omega), hc, Nat.zero_add, Nat.mod_eq_of_lt (by omega)]
          rfl
        · rw [addU_wrap (by omega) hc, show d + (t.lim - d) = t.lim by omega, Nat.mod_self]
    have vac : ∀ {k' : Kernel} {r : Result MapMut}, (∀ m, r ≠ .ok m) → ∀ m, r = .ok m →
        (∃ p, m.ptr = p * k.page + d ∧ k.pt p = none ∧ (∃ e, k'.pt p = some e) ∧
          k'.page = k.page ∧ ∀ q, q ≠ p → k'.pt q = k.pt q) ∧
        (∀ l_1, Extent.min l = .exact l_1 ∨ Extent.min l = .max l_1 →
          m.len = l_1 ∧ k.page < m.len ∧ t.lim < d + m.len) ∧
        (∀ l_1, Extent.min l = .min l_1 → m.len + d = k.page ∧ m.len < l_1) :=
      fun h m hm => absurd hm (h m)
    simp only [Options.allocLen, bind, Except.bind, pure, Except.pure]
    by_cases h1 : d + l < t.lim
    · rw [addU_ok h1]
      simp only
      rw [sizeAlloc_eq]
      by_cases h2 : t.lim < d + l + k.page
      · obtain ⟨len, e1, e2⟩ := wrap0
        obtain ⟨k', r, e3, h3⟩ := zero len
        have hz : (Size.withSize k.page).round t (d + l) = .ok 0 := by
          rw [hs] at h2 ⊢; exact C04_round_zero t s (d + l) (by omega) h1 hc h2
        rw [hz]
        simp only
        rw [e1]
        simp only
        rw [e2]
        exact ⟨k', r, e3, vac h3⟩
      · have he : d + l + k.page = t.lim := by omega
        have hr : (Size.withSize k.page).round t (d + l) = .ok ((t.lim - 1) / k.page * k.page) := by
          rw [hs] at he ⊢; exact round_edge (by omega) he hc
        obtain ⟨c, hc2⟩ : ∃ c, t.lim = c * k.page := by
          refine ⟨2 ^ (t.width.bits - s), ?_⟩
          rw [hs, ← Nat.pow_add, show t.width.bits - s + s = t.width.bits by omega]
          rfl
        have hc3 : (t.lim - 1) / k.page * k.page = t.lim - k.page := by
          have hcp : 0 < c := by
            rcases Nat.eq_zero_or_pos c with h | h
            · rw [h, Nat.zero_mul] at hc2; omega
            · exact h
          obtain ⟨c', rfl⟩ : ∃ c', c = c' + 1 := ⟨c - 1, by omega⟩
          rw [Nat.add_mul, Nat.one_mul] at hc2
          rw [show (t.lim - 1) / k.page = c' by
            apply Nat.div_eq_of_lt_le
            · omega
            · rw [Nat.add_mul, Nat.one_mul]; omega]
          omega
        rw [hr, hc3]
        simp only
        rw [subU_ok (by omega)]
        simp only
        rw [addU_ok (by omega)]
        simp only
        rw [show d + (t.lim - k.page - d) = t.lim - k.page by omega]
        rcases mapAnon_cases t k (t.lim - k.page) o.protect with ⟨e, he⟩ | ⟨p, g1, g2, g3, g4, g5, ge⟩
        · rw [he]; exact ⟨_, _, rfl, fun m h => by cases h⟩
        · exfalso
          have hpg : k.pages (t.lim - k.page) * k.page = t.lim - k.page := by
            show (t.lim - k.page + k.page - 1) / k.page * k.page = _
            rw [show t.lim - k.page + k.page - 1 = t.lim - 1 by omega, hc3]
          rw [Nat.add_mul, hpg] at g4
          have : k.page ≤ p * k.page := Nat.le_mul_of_pos_left _ (by omega)
          omega
    · have hadd : addU t d l = .ok (d + l - t.lim) := by
        rw [addU_wrap h1 hc, Nat.mod_eq_sub_mod (by omega), Nat.mod_eq_of_lt (by omega)]
      rw [hadd]
      simp only
      have hr : (Size.withSize k.page).round t (d + l - t.lim) =
          .ok ((d + l - t.lim + k.page - 1) / k.page * k.page) := by
        have hsm : d + l - t.lim + k.page < t.lim := by omega
        rw [hs] at hsm ⊢; exact round_eq (by omega) hsm
      rw [sizeAlloc_eq, hr]
      simp only
      by_cases hx : d + l - t.lim = 0
      · obtain ⟨len, e1, e2⟩ := wrap0
        obtain ⟨k', r, e3, h3⟩ := zero len
        rw [hx, Nat.div_eq_of_lt (by omega), Nat.zero_mul, e1]
        simp only
        rw [e2]
        exact ⟨k', r, e3, vac h3⟩
      · rw [show (d + l - t.lim + k.page - 1) / k.page = 1 by
          apply Nat.div_eq_of_lt_le <;> omega, Nat.one_mul, subU_ok (by omega)]
        simp only
        rw [addU_ok (by omega), show d + (k.page - d) = k.page by omega]
        simp only
        obtain ⟨k', r, e, h⟩ := fin k.page (k.page - d) (Nat.le_refl _)
        refine ⟨k', r, e, fun m hm => ?_⟩
        obtain ⟨-, a, b⟩ := h m hm
        refine ⟨b, fun l' hl' => ?_, fun l' hl' => ?_⟩
        · rcases hl' with hl' | hl' <;> cases hl'
        · cases hl'; constructor <;> omega

example : ¬ AllocFits ⟨.w32, false⟩ (demo 0).page (3 % (demo 0).page) (.min (2 ^ 32 - 2)) := by
  show ¬ (3 + (2 ^ 32 - 2) + _ < _); decide

/-! ### C39 and C40: dropping allocations of every size -/

/-- C39, allocations of every size, also those whose size exceeds the address space (which debug
builds refuse, see `C37_debug`, and for which release builds map a single page, see
`C37_release`): dropping unmaps exactly the pages that the allocation mapped. -/
theorem C39_drop_any_alloc {t : Target} {k k1 k2 : Kernel} (w : Wf t k) {o : Options}
    (hfit : Fits t o) {m : MapMut} (h : o.alloc t k = .ok (k1, .ok m)) (hlen : 0 < m.len)
    (hp : k2.page = k.page) :
    ∃ k3, m.drop t k2 = .ok k3 ∧ (Map.mk m).drop t k2 = .ok k3 ∧ SameButPages k2 k3 ∧
      (∀ q, k1.pt q ≠ k.pt q → k3.pt q = none) ∧
      (∀ q, k1.pt q = k.pt q → k3.pt q = k2.pt q) := by
  by_cases hf : AllocFits t k.page (o.offset % k.page) o.len
  · exact C39_drop_alloc w hf h hlen hp
  by_cases hc : t.checks = true
  · rw [C37_debug hc w hf] at h; cases h
  have hc : t.checks = false := by simpa using hc
  obtain ⟨k1', r, he, hr⟩ := C37_release hc w hfit hf
  rw [h] at he
  obtain ⟨rfl, rfl⟩ := ok_pair he
  obtain ⟨⟨p, e1, e2, ⟨pte, e3⟩, -, e4⟩, hx, hm⟩ := hr m rfl
  have hpp := w.page_pos
  have hd : o.offset % k.page < k.page := Nat.mod_lt _ hpp
  obtain ⟨s, hs, hs2⟩ := w.page
  have hup : k.page * 4 ≤ t.lim := by
    have h1 : (2:Nat) ^ (s + 2) ≤ 2 ^ t.width.bits := Nat.pow_le_pow_right (by omega) hs2
    rw [Nat.pow_add] at h1
    rw [hs]; exact h1
  generalize o.offset % k.page = d at *
  have one : ∃ n, 0 < n ∧ n ≤ k.page ∧ addU t m.len d = .ok n := by
    cases hl : o.len with
    | endOf => rw [hl] at hf; exact absurd trivial hf
    | exact l =>
      obtain ⟨a, b, c⟩ := hx l (.inl hl)
      have hll : l < t.lim := by have := hfit.len; rw [hl] at this; exact this
      refine ⟨m.len + d - t.lim, by omega, by omega, ?_⟩
      rw [addU_wrap (by omega) hc, Nat.mod_eq_sub_mod (by omega), Nat.mod_eq_of_lt (by omega)]
    | max l =>
      obtain ⟨a, b, c⟩ := hx l (.inr hl)
      have hll : l < t.lim := by have := hfit.len; rw [hl] at this; exact this
      refine ⟨m.len + d - t.lim, by omega, by omega, ?_⟩
      rw [addU_wrap (by omega) hc, Nat.mod_eq_sub_mod (by omega), Nat.mod_eq_of_lt (by omega)]
    | min l =>
      obtain ⟨a, -⟩ := hm l hl
      exact ⟨k.page, hpp, Nat.le_refl _, by rw [← a]; exact addU_ok (by omega)⟩
  obtain ⟨n, hn0, hn1, hn⟩ := one
  have hb : (Size.alloc k2).bounds t m.ptr m.len = .ok (p * k.page, k.page) := by
    have hmod : m.ptr % k.page = d := by
      rw [e1, Nat.add_comm, Nat.add_mul_mod_self_right, Nat.mod_eq_of_lt hd]
    have hround : (Size.withSize k.page).round t n = .ok k.page := by
      have hsm : n + k.page < t.lim := by omega
      have : (n + k.page - 1) / k.page = 1 := by
        apply Nat.div_eq_of_lt_le <;> omega
      rw [hs] at hsm this ⊢
      rw [round_eq (by omega) hsm, this, Nat.one_mul]
    have hoff : (Size.withSize k.page).offset t m.ptr = .ok d := by
      rw [← hmod, hs]; exact offset_eq
    rw [sizeAlloc_eq, hp]
    simp only [Size.bounds, bind, Except.bind, pure, Except.pure, hoff, hn, hround]
    rw [e1, Nat.add_sub_cancel]
  have hdrop : m.drop t k2 = .ok (k2.munmap (p * k.page) k.page).1 := by
    simp only [MapMut.drop]
    rw [if_pos hlen, hb]
    simp only [bind, Except.bind, pure, Except.pure, Unix.unmap]
    rw [munmap_eq (by omega) (by rw [hp]; exact Nat.mul_mod_left p k.page)]
    rfl
  have hpages : k2.pages k.page = 1 := by
    show (k.page + k2.page - 1) / k2.page = 1
    rw [hp]
    apply Nat.div_eq_of_lt_le <;> omega
  rw [munmap_eq (by omega) (by rw [hp]; exact Nat.mul_mod_left p k.page)] at hdrop
  rw [hp, Nat.mul_div_cancel _ hpp, hpages] at hdrop
  refine ⟨_, hdrop, hdrop, ⟨hp.symm, rfl, rfl, rfl, rfl, rfl, rfl, rfl, rfl⟩, ?_, ?_⟩
  · intro q hq
    apply if_pos
    have : q = p := Classical.byContradiction fun hn => hq (e4 q hn)
    omega
  · intro q hq
    apply if_neg
    rintro ⟨a, b⟩
    have : q = p := by omega
    subst this
    rw [e2, e3] at hq
    cases hq

/-- Non-vacuity: such an allocation succeeds in a release build. -/
example {L : Nat} (hL : 2 + L = Target.lim ⟨.w64, false⟩ + 1) :
    (∃ k1, ((Options.newMut.setOffset 2).setLen (.exact L)).alloc ⟨.w64, false⟩ (demo 0) =
      .ok (k1, .ok ⟨4096002, L⟩)) ∧
    ¬ AllocFits ⟨.w64, false⟩ (demo 0).page (2 % (demo 0).page) (.exact L) :=
  ⟨⟨_, alloc_wraps hL⟩, by show ¬ (2 + L < _); omega⟩

/-- An allocation maps pages that were free, at least one, and changes no other page. -/
theorem alloc_takes_free {t : Target} {k k1 : Kernel} (w : Wf t k) {o : Options}
    (hfit : Fits t o) {m : MapMut} (h : o.alloc t k = .ok (k1, .ok m)) :
    k1.page = k.page ∧ (∀ q, k1.pt q ≠ k.pt q → k.pt q = none) ∧
      ∃ q e, k.pt q = none ∧ k1.pt q = some e := by
  by_cases hf : AllocFits t k.page (o.offset % k.page) o.len
  · obtain ⟨len, -, hc, -⟩ := alloc_cases w o hf
    rcases hc with ⟨e, he⟩ | ⟨p, k1', -, -, -, -, hk, -, c, he⟩
    · rw [h] at he; obtain ⟨-, hx⟩ := ok_pair he; cases hx
    · rw [h] at he
      obtain ⟨rfl, -⟩ := ok_pair he
      refine ⟨by rw [hk]; rfl, fun q hq => ?_, ?_⟩
      · by_cases hr : p ≤ q ∧ q < p + k.pages (len + o.offset % k.page)
        · exact c.free q hr.1 hr.2
        · exact absurd (c.others q hr) hq
      · have := c.pages.n_pos
        obtain ⟨e, he, -⟩ := c.mapped p (Nat.le_refl _) (by omega)
        exact ⟨p, e, c.free p (Nat.le_refl _) (by omega), he⟩
  by_cases hc : t.checks = true
  · rw [C37_debug hc w hf] at h; cases h
  have hc : t.checks = false := by simpa using hc
  obtain ⟨k1', r, he, hr⟩ := C37_release hc w hfit hf
  rw [h] at he
  obtain ⟨rfl, rfl⟩ := ok_pair he
  obtain ⟨⟨p, -, e2, ⟨pte, e3⟩, e5, e4⟩, -⟩ := hr m rfl
  refine ⟨e5, fun q hq => ?_, p, pte, e2, e3⟩
  have : q = p := Classical.byContradiction fun hn => hq (e4 q hn)
  rw [this, e2]

/-- C40 for allocations of positive length (missing: empty ones, for which it is false): dropping
the map restores the page table. -/
theorem C40_alloc_partial {t : Target} {k k1 : Kernel} (w : Wf t k) {o : Options}
    (hfit : Fits t o) {m : MapMut} (h : o.alloc t k = .ok (k1, .ok m)) (hlen : 0 < m.len) :
    ∃ k3, m.drop t k1 = .ok k3 ∧ k3.pt = k.pt := by
  obtain ⟨hp, hfree, -⟩ := alloc_takes_free w hfit h
  obtain ⟨k3, a, -, -, c, b⟩ := C39_drop_any_alloc w hfit h hlen hp
  refine ⟨k3, a, funext fun q => ?_⟩
  by_cases hq : k1.pt q = k.pt q
  · rw [b q hq, hq]
  · rw [c q hq, hfree q hq]

/-- C40: an allocation of length zero always has a page, and dropping it never unmaps anything. -/
theorem C40_empty_alloc_leaks {t : Target} {k k1 k2 : Kernel} (w : Wf t k) {o : Options}
    (hfit : Fits t o) {m : MapMut} (h : o.alloc t k = .ok (k1, .ok m)) (hlen : m.len = 0) :
    m.drop t k2 = .ok k2 ∧ ∃ q e, k.pt q = none ∧ k1.pt q = some e := by
  refine ⟨?_, (alloc_takes_free w hfit h).2.2⟩
  rw [MapMut.drop, if_neg (by omega)]; rfl

/-- Non-vacuity: allocations of `l` bytes at offset 5 succeed on the demo kernel, for 0 and for 3000
bytes. -/
example : ∀ l, l = 0 ∨ l = 3000 → ∃ k1 m,
    ((Options.newMut.setOffset 5).setLen (.exact l)).alloc ⟨.w64, true⟩ (demo 0) =
      .ok (k1, .ok m) ∧ m.len = l := by
  intro l hl
  have hf : AllocFits ⟨.w64, true⟩ (demo 0).page (5 % (demo 0).page) (.exact l) := by
    show 5 + l < _; rcases hl with rfl | rfl <;> decide
  obtain ⟨k1, m, h⟩ := C38_partial (demo_wf 0) (o := (Options.newMut.setOffset 5).setLen (.exact l))
    (fun h => by cases h) hf (by
      intro len hlen
      have hlen : len = l := hlen
      subst hlen
      rcases hl with rfl | rfl <;>
      exact ⟨by decide, rfl, by decide, by decide, fun _ _ _ => rfl⟩)
  refine ⟨k1, m, h, ?_⟩
  obtain ⟨len, h1, hc, -⟩ := alloc_cases (t := ⟨.w64, true⟩) (demo_wf 0)
    ((Options.newMut.setOffset 5).setLen (.exact l)) hf
  rcases hc with ⟨e, he⟩ | ⟨p, k1', -, -, -, -, hk, -, c, he⟩
  · rw [h] at he; obtain ⟨-, hx⟩ := ok_pair he; cases hx
  · rw [h] at he
    obtain ⟨-, hx⟩ := ok_pair he
    injection hx with hx
    rw [hx]; exact h1

/-! ### C76: which maps can be written -/

/-- C76, exactly: a map of at least one byte made from a file can be written if write or copy access
was chosen; otherwise every write is a memory fault. -/
theorem C76_exact (tab : SysTable) {t : Target} {k k' : Kernel} {o : Options} {fd : Nat}
    {m : MapMut} (w : Wf t k) (hfit : Fits t o)
    (h : o.mapIf tab t k fd = .ok (k', .ok (some m))) (i : Nat) (b : Byte) (hi : i < m.len) :
    ((∃ k2, m.set k' i b = .ok k2) ↔ (o.protect = .readWrite ∨ o.protect = .readCopy)) ∧
    (¬ (o.protect = .readWrite ∨ o.protect = .readCopy) → m.set k' i b = .error .memory) := by
  have fault : ¬ (o.protect = .readWrite ∨ o.protect = .readCopy) →
      m.set k' i b = .error .memory := by
    intro hp
    obtain ⟨k1', r, h1, g⟩ := mapIf_keeps tab w hfit (fd := fd)
    rw [h] at h1
    obtain ⟨rfl, rfl⟩ := ok_pair h1
    obtain ⟨f, p, n, hf, -, -, -, c⟩ := g.made m rfl
    obtain ⟨e, e1, -, -, -, -, e2, -⟩ := c.maps i hi
    have hw : (protOf o.protect).w = false := by
      cases hq : o.protect <;> simp_all [protOf]
    rw [MapMut.set, if_pos hi, Kernel.store, e1]
    simp only [e2, hw, Bool.false_and, Bool.false_eq_true, if_false]
  refine ⟨⟨fun ⟨k2, hk⟩ => ?_, fun hp => ?_⟩, fault⟩
  · by_cases hp : o.protect = .readWrite ∨ o.protect = .readCopy
    · exact hp
    · rw [fault hp] at hk; cases hk
  · obtain ⟨k2, a, -⟩ := C76_partial tab w hfit hp h i b hi
    exact ⟨k2, a⟩

example (tab : SysTable) : Wf ⟨.w64, true⟩ (demo 0) ∧
    ∃ k' m, Options.new.mapIf tab ⟨.w64, true⟩ (demo 0) 3 =
      .ok (k', .ok (some m)) ∧ m.len = 10000 ∧
      ¬ (Options.new.protect = .readWrite ∨ Options.new.protect = .readCopy) :=
  ⟨demo_wf 0, _, _, rfl, rfl, by decide⟩

end Vmap

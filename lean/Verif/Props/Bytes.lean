import Verif.Proofs.Bytes
import Verif.Spec.Bytes
import Verif.Props.Copy
/-
Property theorems C132: numbers, fills, copies and other rings through `bytes::Buf` and
`bytes::BufMut`.
-/
namespace Vmap
open Kernel Spec

theorem view_of {t : Target} {k : Kernel} {r : Ring} {n : Nat} {q : List Byte} {w : Nat}
    (h : RingAt t k r n) (hq : r.fillBuf t k = .ok q) (hw : r.writeLen t = .ok w) :
    ∃ sp, View t k r n q sp ∧ sp.length = w := by
  obtain ⟨q', sp, v⟩ := h.view
  rw [v.fillBuf] at hq
  rw [v.writeLen] at hw
  injection hq with hq
  injection hw with hw
  subst hq
  exact ⟨sp, v, hw⟩

theorem digits_numBytes (little : Bool) (w v : Nat) : Digits little (numBytes little w v) v := by
  intro i b hb
  have hi := (List.getElem?_eq_some_iff.mp hb).1
  rw [numBytes_length] at hi ⊢
  rw [numBytes_get little w v i hi] at hb
  injection hb with hb
  rw [← hb, UInt8.toNat_ofNat']
  omega

/-- C132: `put_u8` … `put_u128`, their `_le` forms and `put_uint`: a number of `m` bytes is appended as its
digits in base 256 exactly when `m` bytes are free; otherwise the call panics. -/
theorem C132_put_number (t : Target) (k : Kernel) (r : Ring) (n : Nat) (h : RingAt t k r n)
    (q : List Byte) (w : Nat) (hq : r.fillBuf t k = .ok q) (hw : r.writeLen t = .ok w)
    (little : Bool) (m v fuel : Nat)
    (below : n + min m w < posBound t (SeqWrite.writeCapacity r)) :
    (m ≤ w → ∃ k' r' ds, r.putNum t (fuel + 1) k little m v = .ok (some (k', r')) ∧
      RingAt t k' r' (n + m) ∧ r'.fillBuf t k' = .ok (q ++ ds) ∧ ds.length = m ∧
      Digits little ds v ∧ SeqWrite.writeCapacity r' = SeqWrite.writeCapacity r) ∧
    (w < m → r.putNum t (fuel + 1) k little m v = .error .panic) := by
  obtain ⟨sp, vw, hs⟩ := view_of h hq hw
  simp only [SeqWrite.writeCapacity] at below ⊢
  refine ⟨fun hm => ?_, fun hm => vw.putSlice_panic _ _ (by rw [numBytes_length]; omega)⟩
  obtain ⟨k', r', e, v', l, -⟩ := vw.putSlice (numBytes little m v) fuel
    (by rw [numBytes_length]; omega) (by rw [numBytes_length]; omega)
  have ha := v'.at_
  rw [numBytes_length] at ha
  exact ⟨k', r', _, e, ha, v'.fillBuf, numBytes_length _ _ _, digits_numBytes _ _ _, l⟩

/-- C132: `get_u8` … `get_u128`, their `_le` forms and `get_uint`: the number below 256^`m` whose digits
are the next `m` bytes, which are consumed, exactly when `m` bytes are readable; otherwise the call
panics. -/
theorem C132_get_number (t : Target) (k : Kernel) (r : Ring) (n : Nat) (h : RingAt t k r n)
    (q : List Byte) (hq : r.fillBuf t k = .ok q) (little : Bool) (m fuel : Nat) :
    (m ≤ q.length → ∃ r' v, r.getNum t k fuel little m = .ok (some (r', v)) ∧ v < 256 ^ m ∧
      Digits little (q.take m) v ∧ RingAt t k r' n ∧ r'.fillBuf t k = .ok (q.drop m) ∧
      SeqWrite.writeCapacity r' = SeqWrite.writeCapacity r) ∧
    (q.length < m → r.getNum t k fuel little m = .error .panic) := by
  obtain ⟨q', sp, vw⟩ := h.view
  rw [vw.fillBuf] at hq
  injection hq with hq
  subst hq
  refine ⟨fun hm => ?_, fun hm => vw.getNum_panic _ _ _ hm⟩
  obtain ⟨r', e, v', l⟩ := vw.getNum little m fuel hm
  have hl : (q'.take m).length = m := by rw [List.length_take]; omega
  refine ⟨r', _, e, ?_, ?_, v'.at_, v'.fillBuf, l⟩
  · have := numValue_lt little (q'.take m)
    rwa [hl] at this
  · have := digits_numBytes little (q'.take m).length (numValue little (q'.take m))
    rwa [numBytes_numValue] at this

/-- C132: what is put as a sequence of numbers, of any widths and endiannesses, is got back by the same
sequence of calls, once the bytes before it are consumed. -/
theorem C132_numbers_round_trip (t : Target) (k : Kernel) (r : Ring) (n : Nat) (h : RingAt t k r n)
    (q : List Byte) (w : Nat) (hq : r.fillBuf t k = .ok q) (hw : r.writeLen t = .ok w)
    (xs : List (Bool × Nat × Nat)) (small : ∀ x ∈ xs, x.2.2 < 256 ^ x.2.1)
    (fits : (xs.map (fun x => x.2.1)).sum ≤ w)
    (below : n + (xs.map (fun x => x.2.1)).sum < posBound t (SeqWrite.writeCapacity r))
    (fuel fuel' : Nat) :
    ∃ k' r1 r2 r3, Ring.putNums t (fuel + 1) k r xs = .ok (some (k', r1)) ∧
      r1.advance t q.length = .ok r2 ∧
      Ring.getNums t k' fuel' r2 (xs.map (fun x => (x.1, x.2.1))) =
        .ok (some (r3, xs.map (fun x => x.2.2))) ∧
      r3.fillBuf t k' = .ok [] := by
  obtain ⟨sp, vw, hs⟩ := view_of h hq hw
  obtain ⟨k', r1, sp1, e1, v1, l1⟩ := putNums_view fuel xs vw (by omega) below
  obtain ⟨r2, e2, v2, l2, -⟩ := v1.advance q.length
  rw [List.drop_left] at v2
  obtain ⟨r3, sp3, e3, v3, -⟩ := getNums_view (q := []) fuel' xs (by rw [List.append_nil]; exact v2)
  refine ⟨k', r1, r2, r3, e1, e2, ?_, v3.fillBuf⟩
  rw [e3]
  congr 3
  exact List.map_congr_left (fun x hx => Nat.mod_eq_of_lt (small x hx))

/-- C132: a signed number of `m` bytes that is put is got back. -/
theorem C132_signed_round_trip (t : Target) (k : Kernel) (r : Ring) (n : Nat) (h : RingAt t k r n)
    (q : List Byte) (w : Nat) (hq : r.fillBuf t k = .ok q) (hw : r.writeLen t = .ok w)
    (little : Bool) (m : Nat) (v : Int) (low : -(256 ^ m : Nat) ≤ 2 * v)
    (high : 2 * v < (256 ^ m : Nat)) (fits : m ≤ w)
    (below : n + m < posBound t (SeqWrite.writeCapacity r)) (fuel fuel' : Nat) :
    ∃ k' r1 r2 r3, r.putInt t (fuel + 1) k little m v = .ok (some (k', r1)) ∧
      r1.advance t q.length = .ok r2 ∧ r2.getInt t k' fuel' little m = .ok (some (r3, v)) ∧
      r3.fillBuf t k' = .ok [] := by
  obtain ⟨k', r1, r2, r3, e1, e2, e3, e4⟩ := C132_numbers_round_trip t k r n h q w hq hw
    [(little, m, bitsOf m v)] (by simpa using bitsOf_lt m v) (by simpa using fits)
    (by simpa using below) fuel fuel'
  refine ⟨k', r1, r2, r3, ?_, e2, ?_, e4⟩
  · simp only [Ring.putNums, bind, Except.bind] at e1
    rw [Ring.putInt]
    generalize Ring.putNum t (fuel + 1) k r little m (bitsOf m v) = z at e1
    cases z with
    | error f => cases e1
    | ok z => cases z with
      | none => cases e1
      | some z => exact e1
  · simp only [List.map_cons, List.map_nil, Ring.getNums, bind, Except.bind] at e3
    simp only [Ring.getInt, bind, Except.bind]
    generalize Ring.getNum t k' fuel' r2 little m = z at e3
    cases z with
    | error f => cases e3
    | ok z => cases z with
      | none => cases e3
      | some z =>
        obtain ⟨r4, u⟩ := z
        injection e3 with e3
        injection e3 with e3
        injection e3 with e3 e5
        injection e5 with e5
        subst e3 e5
        simp only [pure, Except.pure, signedOf_bitsOf m v low high]

/-- C132: `put_bytes(b, m)` appends `m` times `b` exactly when they fit; otherwise it panics. -/
theorem C132_put_bytes (t : Target) (k : Kernel) (r : Ring) (n : Nat) (h : RingAt t k r n)
    (q : List Byte) (w : Nat) (hq : r.fillBuf t k = .ok q) (hw : r.writeLen t = .ok w)
    (b : Byte) (m fuel : Nat) (below : n + min m w < posBound t (SeqWrite.writeCapacity r)) :
    (m ≤ w → ∃ k' r', r.putBytes t (fuel + 1) k b m = .ok (some (k', r')) ∧
      RingAt t k' r' (n + m) ∧ r'.fillBuf t k' = .ok (q ++ List.replicate m b)) ∧
    (w < m → r.putBytes t (fuel + 1) k b m = .error .panic) := by
  obtain ⟨sp, vw, hs⟩ := view_of h hq hw
  simp only [SeqWrite.writeCapacity] at below
  refine ⟨fun hm => ?_, fun hm => ?_⟩
  · obtain ⟨k', r', e, v', -⟩ := vw.putBytes b m fuel (by omega) (by omega)
    exact ⟨k', r', e, v'.at_, v'.fillBuf⟩
  · simp only [Ring.putBytes, Ring.remainingMut, vw.writeLen, bind, Except.bind]
    rw [if_pos (by omega)]
    rfl

/-- C132: `copy_to_bytes(m)` is the next `m` bytes, which are consumed, exactly when there are enough;
otherwise it panics.  `chunks_vectored` gives everything readable in the first slice. -/
theorem C132_copy_to_bytes (t : Target) (k : Kernel) (r : Ring) (n : Nat) (h : RingAt t k r n)
    (q : List Byte) (hq : r.fillBuf t k = .ok q) (m fuel : Nat) :
    (m ≤ q.length → ∃ r', r.copyToBytes t k (fuel + 2) m = .ok (some (r', q.take m)) ∧
      RingAt t k r' n ∧ r'.fillBuf t k = .ok (q.drop m)) ∧
    (q.length < m → r.copyToBytes t k (fuel + 2) m = .error .panic) ∧
    ∃ cs, r.chunksVectored t k m = .ok cs ∧ cs.length ≤ m ∧ [] ∉ cs ∧
      (m ≠ 0 → cs.flatten = q) := by
  obtain ⟨q', sp, vw⟩ := h.view
  rw [vw.fillBuf] at hq
  injection hq with hq
  subst hq
  refine ⟨fun hm => ?_, fun hm => ?_, ?_⟩
  · obtain ⟨r', e, v', -⟩ := vw.copyToBytes m fuel hm
    exact ⟨r', e, v'.at_, v'.fillBuf⟩
  · simp only [Ring.copyToBytes, Ring.remaining, vw.readLen, bind, Except.bind]
    rw [if_pos hm]
    rfl
  · simp only [Ring.chunksVectored, Ring.remaining, vw.readLen, vw.chunk, bind, Except.bind]
    by_cases hm : m = 0
    · exact ⟨[], by rw [if_pos hm]; rfl, by simp, by simp, fun h => absurd hm h⟩
    · rw [if_neg hm]
      by_cases hz : q'.length = 0
      · exact ⟨[], by rw [if_pos hz]; rfl, by simp, by simp,
          fun _ => (List.eq_nil_of_length_eq_zero hz).symm⟩
      · refine ⟨[q'], by rw [if_neg hz]; rfl, by simp; omega, ?_, by simp⟩
        intro hc
        rw [List.mem_singleton] at hc
        exact hz (by rw [← hc]; rfl)

/-- C132: `reader()` reads and `writer()` writes exactly what `Read` and `Write` on the ring itself
would. -/
theorem C132_adapters (t : Target) (k : Kernel) (r : Ring) (n : Nat) (h : RingAt t k r n)
    (q : List Byte) (w : Nat) (hq : r.fillBuf t k = .ok q) (hw : r.writeLen t = .ok w)
    (m fuel : Nat) (src : List Byte)
    (below : n + min src.length w < posBound t (SeqWrite.writeCapacity r)) :
    (∃ r' r'', r.readerRead t k (fuel + 1) m = .ok (some (r', q.take m)) ∧
      r.read t k m = .ok (r'', q.take m) ∧ r'.fillBuf t k = .ok (q.drop m) ∧
      r''.fillBuf t k = .ok (q.drop m)) ∧
    (∃ k' k'' r' r'', r.writerWrite t (fuel + 1) k src = .ok (some (k', r', min src.length w)) ∧
      r.write t k src = .ok (k'', r'', min src.length w) ∧
      r'.fillBuf t k' = .ok (q ++ src.take w) ∧ r''.fillBuf t k'' = .ok (q ++ src.take w)) := by
  obtain ⟨sp, vw, hs⟩ := view_of h hq hw
  simp only [SeqWrite.writeCapacity] at below
  constructor
  · obtain ⟨r', e, v', -⟩ := vw.copyToSlice (min q.length m) fuel (by omega)
    have h1 : q.take (min q.length m) = q.take m := by rw [List.take_eq_take_iff]; omega
    have h2 : q.drop (min q.length m) = q.drop m := by
      by_cases c : m ≤ q.length
      · rw [Nat.min_eq_right c]
      · rw [Nat.min_eq_left (by omega), List.drop_eq_nil_of_le (by omega),
          List.drop_eq_nil_of_le (by omega)]
    rw [h1] at e
    have hf := v'.fillBuf
    rw [h2] at hf
    obtain ⟨o, rep⟩ := vw.rep
    obtain ⟨r'', e2, -, rep', -⟩ := rep.read_eq m
    refine ⟨r', r'', ?_, e2, hf, rep'.fillBuf_eq⟩
    simp only [Ring.readerRead, Ring.remaining, vw.readLen, bind, Except.bind]
    exact e
  · obtain ⟨k', r', e, v', -⟩ := vw.putSlice (src.take (min sp.length src.length)) fuel
      (by rw [List.length_take]; omega) (by rw [List.length_take]; omega)
    obtain ⟨k'', r'', e2, hf2, -⟩ := C10_ring_write t k r n h q w hq hw src below
    have h1 : src.take (min sp.length src.length) = src.take w := by
      rw [List.take_eq_take_iff]; omega
    rw [h1] at e
    have hf := v'.fillBuf
    rw [h1] at hf
    refine ⟨k', k'', r', r'', ?_, e2, hf, hf2⟩
    simp only [Ring.writerWrite, Ring.remainingMut, vw.writeLen, bind, Except.bind, h1, e]
    rw [hs, Nat.min_comm]
    rfl

/-- C132: in any program, `put` of one ring (by reference) into another moves everything readable, when
it fits, and leaves every other ring and map as it was; otherwise it panics. -/
theorem C132_put_ring {tab : SysTable} {t : Target} {k0 : Kernel} (wf : Wf t k0) {w : World}
    (h : Reach tab t k0 w) {i j : Nat} (hij : i ≠ j) {d s : Ring} {n m : Nat}
    (hd : w.held i = some (.ring d n)) (hs : w.held j = some (.ring s m)) {qd qs : List Byte}
    {free : Nat} (hqd : d.fillBuf t w.k = .ok qd) (hqs : s.fillBuf t w.k = .ok qs)
    (hf : d.writeLen t = .ok free) (fuel : Nat)
    (below : n + SeqWrite.writeCapacity d < posBound t (SeqWrite.writeCapacity d)) :
    (qs.length ≤ free → ∃ w' d' s' n' m', Ring.putRing t (fuel + 2) w.k d s =
        .ok (some (w'.k, d', s')) ∧ Reach tab t k0 w' ∧ w'.held i = some (.ring d' n') ∧
      w'.held j = some (.ring s' m') ∧ d'.fillBuf t w'.k = .ok (qd ++ qs) ∧
      s'.fillBuf t w'.k = .ok [] ∧ n' ≤ n + SeqWrite.writeCapacity d ∧ m' = m ∧
      ∀ l, l ≠ i → l ≠ j → w'.held l = w.held l ∧ ∀ x, w.held l = some x → ∀ a,
        x.base ≤ a → a < x.base + x.bytes → w'.k.load a = w.k.load a) ∧
    (free < qs.length → Ring.putRing t (fuel + 2) w.k d s = .error .panic) := by
  have vi := h.inv wf
  obtain ⟨spd, vd, hfr⟩ := view_of (vi.live i _ hd).1 hqd hf
  obtain ⟨q', sps, vs⟩ := RingAt.view (vi.live j _ hs).1
  rw [vs.fillBuf] at hqs
  injection hqs with hqs
  subst hqs
  simp only [SeqWrite.writeCapacity] at below ⊢
  constructor
  · intro hl
    have hlen := vd.len
    obtain ⟨k', d', s', e, v', ld, u, es, ls⟩ := putRing_view vd vs fuel (by omega) (by omega)
    obtain ⟨n', r1, hn', -, on⟩ := u.world wf h hd (by omega)
    have hs1 : (w.upd k' i (some (.ring d' n'))).held j = some (.ring s m) := by
      simp only [World.upd, if_neg (Ne.symm hij)]; exact hs
    have hq1 : readSliceBytes t k' s t.usizeMax = .ok q' :=
      (on.ring wf h (Ne.symm hij) hs).trans vs.readSlice
    obtain ⟨q1, sp1, v1⟩ := RingAt.view ((r1.inv wf).live j _ hs1).1
    rw [show (w.upd k' i (some (.ring d' n'))).k = k' from rfl] at v1
    rw [v1.readSlice] at hq1
    injection hq1 with hq1
    subst hq1
    obtain ⟨s2, es2, v2, -, -⟩ := v1.consume q1.length
    rw [es] at es2
    injection es2 with es2
    subst es2
    have step : Reach tab t k0 ((w.upd k' i (some (.ring d' n'))).upd k' j (some (.ring s' m))) := by
      have hw1 : s.writeLen t = .ok sp1.length := v1.writeLen
      have ex : s.exec t k' (.consume q1.length) = .ok ((k', s'), .unit) := by
        simp only [Ring.exec, es, bind, Except.bind, pure, Except.pure]
      refine .step (op := .ringOp j (.consume q1.length)) r1 ?_ ?_
      · intro r n l hr hl
        rw [hs1] at hr
        injection hr with hr
        injection hr with hr hn
        subst hr hn
        exact vs.below
      · simp only [World.step, hs1, hw1, bind, Except.bind]
        rw [show (w.upd k' i (some (.ring d' n'))).k = k' from rfl, ex]
        rfl
    refine ⟨_, d', s', n', m, ?_, step, ?_, ?_, v'.fillBuf, ?_, by omega, rfl, ?_⟩
    · exact e
    · simp only [World.upd, if_neg hij, if_true]
    · simp only [World.upd, if_true]
    · have := v2.fillBuf
      rwa [List.drop_length] at this
    · intro l h1 h2
      exact ⟨by simp only [World.upd, if_neg h1, if_neg h2], fun x hx => on.others l x h1 hx⟩
  · intro hl
    simp only [Ring.putRing, Ring.remainingMut, Ring.remaining, vd.writeLen, vs.readLen, bind,
      Except.bind]
    rw [if_pos (by omega)]
    rfl

theorem demo_room : ∃ k r, RingAt ⟨.w64, true⟩ k r 3 ∧
    r.fillBuf ⟨.w64, true⟩ k = .ok [1, 2, 3] ∧ r.writeLen ⟨.w64, true⟩ = .ok 8189 ∧
    SeqWrite.writeCapacity r = 8192 := by
  obtain ⟨k, r, h, hq, hl⟩ := demo_ring_8k
  obtain ⟨q, sp, v⟩ := h.view
  have h1 := v.len
  rw [v.fillBuf] at hq
  injection hq with hq
  subst hq
  have hl' : r.len = 8192 := hl
  simp only [List.length_cons, List.length_nil, hl'] at h1
  refine ⟨k, r, h, v.fillBuf, ?_, hl⟩
  rw [v.writeLen, show sp.length = 8189 by omega]

-- a 32-bit big-endian number, a 16-bit little-endian one and a byte: 7 bytes into 8189
example : ∃ k r, RingAt ⟨.w64, true⟩ k r 3 ∧ r.fillBuf ⟨.w64, true⟩ k = .ok [1, 2, 3] ∧
    r.writeLen ⟨.w64, true⟩ = .ok 8189 ∧
    (∀ x ∈ [(false, 4, 70000), (true, 2, 513), (false, 1, 255)], x.2.2 < 256 ^ x.2.1) ∧
    ([(false, 4, 70000), (true, 2, 513), (false, 1, 255)].map (fun x => x.2.1)).sum ≤ 8189 ∧
    3 + ([(false, 4, 70000), (true, 2, 513), (false, 1, 255)].map (fun x => x.2.1)).sum <
      posBound ⟨.w64, true⟩ (SeqWrite.writeCapacity r) := by
  obtain ⟨k, r, h, hq, hw, hl⟩ := demo_room
  exact ⟨k, r, h, hq, hw, by simp, by simp, by rw [hl]; simp [posBound, Target.lim, Width.bits, lim64]⟩

-- 513 = 2 · 256 + 1 in two bytes, and -2 in one
example : Digits false [2, 1] 513 ∧ Digits true [1, 2] 513 ∧ ¬ Digits true [2, 1] 513 ∧
    bitsOf 1 (-2) = 254 ∧ signedOf 1 254 = -2 := by
  refine ⟨?_, ?_, ?_, rfl, rfl⟩
  · intro i b h
    match i, h with
    | 0, h => injection h with h; subst h; rfl
    | 1, h => injection h with h; subst h; rfl
    | i + 2, h => simp at h
  · intro i b h
    match i, h with
    | 0, h => injection h with h; subst h; rfl
    | 1, h => injection h with h; subst h; rfl
    | i + 2, h => simp at h
  · intro h
    exact absurd (h 0 2 rfl) (by decide)

-- more than fits, and more than is there
example : ∃ k r q w, RingAt ⟨.w64, true⟩ k r 3 ∧ r.fillBuf ⟨.w64, true⟩ k = .ok q ∧
    r.writeLen ⟨.w64, true⟩ = .ok w ∧ q.length < 4 ∧ w < 10000 ∧ 2 ≤ q.length ∧ 16 ≤ w ∧
    3 + min 10000 w < posBound ⟨.w64, true⟩ (SeqWrite.writeCapacity r) := by
  obtain ⟨k, r, h, hq, hw, hl⟩ := demo_room
  exact ⟨k, r, _, _, h, hq, hw, by simp, by simp, by simp, by simp,
    by rw [hl]; simp [posBound, Target.lim, Width.bits, lim64]⟩

-- a program with two rings, the second holding two bytes
example (tab : SysTable) : Wf ⟨.w64, true⟩ (demo 0) ∧
    ∃ (w : World) (d s : Ring) (m : Nat),
    Reach tab ⟨.w64, true⟩ (demo 0) w ∧ (0 : Nat) ≠ 1 ∧ w.held 0 = some (.ring d 0) ∧
    w.held 1 = some (.ring s m) ∧ d.fillBuf ⟨.w64, true⟩ w.k = .ok [] ∧
    s.fillBuf ⟨.w64, true⟩ w.k = .ok [7, 8] ∧ d.writeLen ⟨.w64, true⟩ = .ok 8192 ∧
    0 + SeqWrite.writeCapacity d < posBound ⟨.w64, true⟩ (SeqWrite.writeCapacity d) := by
  refine ⟨demo_wf 0, ?_⟩
  obtain ⟨w, d, s, h, h0, h1, hd, hs⟩ := demo_copy tab
  have hd' : d.len = 8192 := hd
  have hs' : s.len = 16384 := hs
  have sa := ((h.inv (demo_wf 0)).live 1 _ h1).1
  have hse := new_empty sa
  obtain ⟨q, sp, v⟩ := RingAt.view sa
  rw [v.readSlice] at hse
  injection hse with hse
  subst hse
  have hsl := v.len
  simp only [List.length_nil, Nat.zero_add] at hsl
  obtain ⟨k', s', e, v', -, -⟩ := v.write [7, 8] (by
    rw [hs']; simp only [List.length_cons, List.length_nil]
    simp [posBound, Target.lim, Width.bits, lim64]; omega)
  obtain ⟨m, r1, -, -, on⟩ := (write_uses e).world (demo_wf 0) h h1 (by
    rw [hs']; simp [posBound, Target.lim, Width.bits, lim64])
  have hd1 : (w.upd k' 1 (some (.ring s' m))).held 0 = some (.ring d 0) := by
    simp only [World.upd]; exact h0
  have da := ((r1.inv (demo_wf 0)).live 0 _ hd1).1
  have hde := new_empty da
  obtain ⟨qd, spd, vd⟩ := RingAt.view da
  rw [vd.readSlice] at hde
  injection hde with hde
  subst hde
  have hdl := vd.len
  simp only [List.length_nil, Nat.zero_add] at hdl
  refine ⟨_, d, s', m, r1, by omega, hd1, by simp only [World.upd, if_true], vd.fillBuf, ?_, ?_, ?_⟩
  · have := v'.fillBuf
    rwa [List.nil_append, List.take_of_length_le (by
      simp only [List.length_cons, List.length_nil]; omega)] at this
  · rw [vd.writeLen, hdl, hd']
  · rw [hd]; simp [posBound, Target.lim, Width.bits, lim64]

end Vmap

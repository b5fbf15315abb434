import Verif.Model.Bytes
import Verif.Proofs.Copy
/- Helper lemmas: `bytes::Buf` and `bytes::BufMut` on a reachable ring. -/
namespace Vmap
open Kernel Spec

theorem beBytes_length : ∀ w v, (beBytes w v).length = w
  | 0, _ => rfl
  | w + 1, v => by simp [beBytes, beBytes_length w]

theorem beBytes_get : ∀ (w v i : Nat), i < w →
    (beBytes w v)[i]? = some (UInt8.ofNat (v / 256 ^ (w - 1 - i) % 256))
  | 0, _, _, h => by omega
  | w + 1, v, i, h => by
    simp only [beBytes]
    by_cases hi : i < w
    · rw [List.getElem?_append_left (by rw [beBytes_length]; exact hi), beBytes_get w _ i hi,
        Nat.div_div_eq_div_mul, show w + 1 - 1 - i = (w - 1 - i) + 1 by omega, Nat.pow_succ,
        Nat.mul_comm]
    · have : i = w := by omega
      subst this
      rw [List.getElem?_append_right (by rw [beBytes_length]; exact Nat.le_refl _), beBytes_length]
      simp

theorem beValue_append (bs : List Byte) (b : Byte) :
    beValue (bs ++ [b]) = beValue bs * 256 + b.toNat := by
  simp [beValue, List.foldl_append]

theorem beValue_beBytes : ∀ w v, beValue (beBytes w v) = v % 256 ^ w
  | 0, v => by simp [beBytes, beValue, Nat.mod_one]
  | w + 1, v => by
    rw [beBytes, beValue_append, beValue_beBytes w]
    have : (UInt8.ofNat (v % 256)).toNat = v % 256 := by
      rw [UInt8.toNat_ofNat']; omega
    rw [this, Nat.pow_succ, Nat.mul_comm (256 ^ w) 256, Nat.mod_mul, Nat.mul_comm]
    omega

theorem beBytes_beValue : ∀ (w : Nat) (bs : List Byte), bs.length = w →
    beBytes w (beValue bs) = bs
  | 0, bs, h => by rw [List.eq_nil_of_length_eq_zero h]; rfl
  | w + 1, bs, h => by
    obtain ⟨l, b, rfl⟩ : ∃ l b, bs = l ++ [b] := by
      refine ⟨bs.dropLast, bs.getLast (by intro e; simp [e] at h), ?_⟩
      exact (List.dropLast_concat_getLast _).symm
    have hl : l.length = w := by simpa using h
    have hb : b.toNat < 256 := b.toNat_lt
    rw [beValue_append, beBytes, show (beValue l * 256 + b.toNat) / 256 = beValue l by omega,
      show (beValue l * 256 + b.toNat) % 256 = b.toNat by omega, beBytes_beValue w l hl,
      UInt8.ofNat_toNat]

theorem beValue_lt : ∀ bs : List Byte, beValue bs < 256 ^ bs.length := by
  intro bs
  have := beValue_beBytes bs.length (beValue bs)
  rw [beBytes_beValue _ _ rfl] at this
  rw [this]
  exact Nat.mod_lt _ (Nat.pow_pos (by omega))

theorem numBytes_length (little : Bool) (w v : Nat) : (numBytes little w v).length = w := by
  cases little <;> simp [numBytes, beBytes_length]

theorem numValue_numBytes (little : Bool) (w v : Nat) :
    numValue little (numBytes little w v) = v % 256 ^ w := by
  cases little <;> simp [numBytes, numValue, beValue_beBytes]

theorem numBytes_numValue (little : Bool) (bs : List Byte) :
    numBytes little bs.length (numValue little bs) = bs := by
  cases little
  · simp [numBytes, numValue, beBytes_beValue]
  · have := beBytes_beValue bs.length bs.reverse (by simp)
    simp [numBytes, numValue, this]

theorem numValue_lt (little : Bool) (bs : List Byte) : numValue little bs < 256 ^ bs.length := by
  cases little
  · simpa [numValue] using beValue_lt bs
  · simpa [numValue] using beValue_lt bs.reverse

/-- The place of the `i`-th byte. -/
theorem numBytes_get (little : Bool) (w v i : Nat) (hi : i < w) :
    (numBytes little w v)[i]? =
      some (UInt8.ofNat (v / 256 ^ (if little then i else w - 1 - i) % 256)) := by
  cases little
  · simpa [numBytes] using beBytes_get w v i hi
  · simp only [numBytes, if_true]
    rw [List.getElem?_reverse (by rw [beBytes_length]; exact hi), beBytes_length,
      beBytes_get _ _ _ (by omega), show w - 1 - (w - 1 - i) = i by omega]

theorem bitsOf_lt (w : Nat) (v : Int) : bitsOf w v < 256 ^ w := by
  have hp : 0 < 256 ^ w := Nat.pow_pos (by omega)
  have h1 := Int.emod_nonneg v (b := (256 ^ w : Nat)) (by omega)
  have h2 := Int.emod_lt_of_pos v (b := (256 ^ w : Nat)) (by omega)
  unfold bitsOf
  omega

theorem signedOf_bitsOf (w : Nat) (v : Int) (h1 : -(256 ^ w : Nat) ≤ 2 * v)
    (h2 : 2 * v < (256 ^ w : Nat)) : signedOf w (bitsOf w v) = v := by
  unfold signedOf bitsOf
  generalize 256 ^ w = m at *
  have h3 := Int.emod_nonneg v (b := (m : Int)) (by omega)
  have h4 := Int.emod_lt_of_pos v (b := (m : Int)) (by omega)
  by_cases hv : 0 ≤ v
  · rw [Int.emod_eq_of_lt hv (by omega)]
    rw [if_pos (by omega)]; omega
  · have : v % (m : Int) = v + m := by
      rw [← Int.add_emod_right, Int.emod_eq_of_lt (by omega) (by omega)]
    rw [this, if_neg (by omega)]; omega

namespace View
variable {t : Target} {k : Kernel} {r : Ring} {n : Nat} {q sp : List Byte}

theorem chunk (h : View t k r n q sp) : r.chunk t k = .ok q := h.fillBuf

theorem chunkMut (h : View t k r n q sp) : ∃ a, r.chunkMut t = .ok (a, sp.length) := by
  obtain ⟨o, h1⟩ := h.rep
  have hl := h.len
  have hlt := h1.len_lt
  refine ⟨r.ptr + r.wpos % r.len, ?_⟩
  rw [Ring.chunkMut, h1.asWriteSlice_eq, Nat.min_eq_left (by simp only [Target.usizeMax]; omega)]

/-- Storing at the front of `chunk_mut()`, then advancing over what was stored. -/
theorem put (h : View t k r n q sp) (bs : List Byte) (hl : bs.length ≤ sp.length)
    (hb : n + bs.length < posBound t r.len) :
    ∃ a k' r', r.chunkMut t = .ok (a, sp.length) ∧ k.storeN a bs = .ok k' ∧
      r.advanceMut t bs.length = .ok r' ∧
      View t k' r' (n + bs.length) (q ++ bs) (sp.drop bs.length) ∧ r'.len = r.len ∧
      Uses t k r 1 k' r' := by
  obtain ⟨a, ha⟩ := h.chunkMut
  obtain ⟨k', e, v⟩ := h.poke bs
  have u1 := poke_uses e
  rw [Vmap.poke, show asWriteSlice t r t.usizeMax = .ok (a, sp.length) from ha] at e
  simp only [bind, Except.bind, List.take_of_length_le hl] at e
  have hlen : (bs.take sp.length ++ sp.drop bs.length).length = sp.length := by
    simp only [List.length_append, List.length_take, List.length_drop]; omega
  obtain ⟨r', e2, v2, l2, -⟩ := v.feed bs.length (by rw [hlen]; omega)
  refine ⟨a, k', r', ha, e, e2, ?_, l2, (u1.trans (feed_uses e2)).mono (by omega)⟩
  rw [hlen, Nat.min_eq_left hl, List.take_of_length_le hl, List.take_left, List.drop_left] at v2
  exact v2

theorem putSlice (h : View t k r n q sp) (bs : List Byte) (fuel : Nat) (hl : bs.length ≤ sp.length)
    (hb : n + bs.length < posBound t r.len) :
    ∃ k' r', r.putSlice t (fuel + 1) k bs = .ok (some (k', r')) ∧
      View t k' r' (n + bs.length) (q ++ bs) (sp.drop bs.length) ∧ r'.len = r.len ∧
      Uses t k r 1 k' r' := by
  simp only [Ring.putSlice, Ring.remainingMut, h.writeLen, bind, Except.bind]
  rw [if_neg (by omega)]
  cases bs with
  | nil => exact ⟨k, r, rfl, by simpa using h, rfl, (Uses.refl _ _ _).mono (by omega)⟩
  | cons b bs =>
    obtain ⟨a, k', r', h1, h2, h3, v, l, u⟩ := h.put (b :: bs) hl hb
    refine ⟨k', r', ?_, v, l, u⟩
    show Ring.putLoop t (fuel + 1) k r (b :: bs) = _
    simp only [Ring.putLoop, h1, bind, Except.bind, Nat.min_eq_right hl, List.take_length, h2, h3,
      List.drop_length]

theorem putSlice_panic (h : View t k r n q sp) (bs : List Byte) (fuel : Nat)
    (hl : sp.length < bs.length) : r.putSlice t fuel k bs = .error .panic := by
  simp only [Ring.putSlice, Ring.remainingMut, h.writeLen, bind, Except.bind]
  rw [if_pos hl]
  rfl

theorem advance (h : View t k r n q sp) (m : Nat) :
    ∃ r', r.advance t m = .ok r' ∧ View t k r' n (q.drop m) (sp ++ q.take m) ∧ r'.len = r.len ∧
      Uses t k r 0 k r' := by
  obtain ⟨r', e, v, l, -⟩ := h.consume m
  exact ⟨r', e, v, l, consume_uses e⟩

theorem copyToSlice (h : View t k r n q sp) (m fuel : Nat) (hm : m ≤ q.length) :
    ∃ r', r.copyToSlice t k (fuel + 1) m = .ok (some (r', q.take m)) ∧
      View t k r' n (q.drop m) (sp ++ q.take m) ∧ r'.len = r.len := by
  simp only [Ring.copyToSlice, Ring.remaining, h.readLen, bind, Except.bind]
  rw [if_neg (by omega)]
  cases m with
  | zero => exact ⟨r, by simp [Ring.copyLoop], by simpa using h, rfl⟩
  | succ m =>
    obtain ⟨r', e, v, l, -⟩ := h.advance (m + 1)
    refine ⟨r', ?_, v, l⟩
    show Ring.copyLoop t k (fuel + 1) r (m + 1) [] = _
    simp only [Ring.copyLoop, h.chunk, bind, Except.bind, Nat.min_eq_right hm, e, Nat.sub_self,
      List.nil_append]

theorem copyToSlice_panic (h : View t k r n q sp) (m fuel : Nat) (hm : q.length < m) :
    r.copyToSlice t k fuel m = .error .panic := by
  simp only [Ring.copyToSlice, Ring.remaining, h.readLen, bind, Except.bind]
  rw [if_pos hm]
  rfl

theorem getNum (h : View t k r n q sp) (little : Bool) (w fuel : Nat) (hw : w ≤ q.length) :
    ∃ r', r.getNum t k fuel little w = .ok (some (r', numValue little (q.take w))) ∧
      View t k r' n (q.drop w) (sp ++ q.take w) ∧ r'.len = r.len := by
  obtain ⟨r', e, v, l, -⟩ := h.advance w
  refine ⟨r', ?_, v, l⟩
  simp only [Ring.getNum, h.chunk, bind, Except.bind, if_pos hw, e]
  rfl

theorem getNum_panic (h : View t k r n q sp) (little : Bool) (w fuel : Nat) (hw : q.length < w) :
    r.getNum t k fuel little w = .error .panic := by
  simp only [Ring.getNum, h.chunk, bind, Except.bind, if_neg (Nat.not_le.mpr hw),
    h.copyToSlice_panic w fuel hw]

theorem putBytes (h : View t k r n q sp) (b : Byte) (m fuel : Nat) (hl : m ≤ sp.length)
    (hb : n + m < posBound t r.len) :
    ∃ k' r', r.putBytes t (fuel + 1) k b m = .ok (some (k', r')) ∧
      View t k' r' (n + m) (q ++ List.replicate m b) (sp.drop m) ∧ r'.len = r.len := by
  simp only [Ring.putBytes, Ring.remainingMut, h.writeLen, bind, Except.bind]
  rw [if_neg (by omega)]
  cases m with
  | zero => exact ⟨k, r, by simp [Ring.fillLoop], by simpa using h, rfl⟩
  | succ m =>
    obtain ⟨a, k', r', h1, h2, h3, v, l, u⟩ := h.put (List.replicate (m + 1) b)
      (by rw [List.length_replicate]; exact hl) (by rw [List.length_replicate]; exact hb)
    rw [List.length_replicate] at h3 v
    refine ⟨k', r', ?_, v, l⟩
    show Ring.fillLoop t b (fuel + 1) k r (m + 1) = _
    simp only [Ring.fillLoop, h1, bind, Except.bind, Nat.min_eq_right hl, h2, h3, Nat.sub_self]

theorem copyToBytes (h : View t k r n q sp) (m fuel : Nat) (hm : m ≤ q.length) :
    ∃ r', r.copyToBytes t k (fuel + 2) m = .ok (some (r', q.take m)) ∧
      View t k r' n (q.drop m) (sp ++ q.take m) ∧ r'.len = r.len := by
  simp only [Ring.copyToBytes, Ring.remaining, h.readLen, bind, Except.bind]
  rw [if_neg (by omega)]
  by_cases hz : m = 0
  · subst hz
    refine ⟨r, ?_, by simpa using h, rfl⟩
    show Ring.takeLoop t k (fuel + 2) r 0 [] = _
    simp only [Ring.takeLoop, Ring.remaining, h.readLen, bind, Except.bind, Nat.min_zero]
    rfl
  · obtain ⟨r', e, v, l, -⟩ := h.advance m
    refine ⟨r', ?_, v, l⟩
    show Ring.takeLoop t k (fuel + 2) r m [] = _
    simp only [Ring.takeLoop, Ring.remaining, h.readLen, bind, Except.bind, if_neg hz,
      h.chunk, Nat.min_eq_right hm, e, v.readLen, Nat.sub_self, Nat.min_zero, List.nil_append]
    rfl

end View

theorem putNums_view {t : Target} (fuel : Nat) : ∀ (xs : List (Bool × Nat × Nat)) {k : Kernel}
    {r : Ring} {n : Nat} {q sp : List Byte}, View t k r n q sp →
    (xs.map (fun x => x.2.1)).sum ≤ sp.length →
    n + (xs.map (fun x => x.2.1)).sum < posBound t r.len →
    ∃ k' r' sp', Ring.putNums t (fuel + 1) k r xs = .ok (some (k', r')) ∧
      View t k' r' (n + (xs.map (fun x => x.2.1)).sum)
        (q ++ (xs.map (fun x => numBytes x.1 x.2.1 x.2.2)).flatten) sp' ∧ r'.len = r.len
  | [], k, r, n, q, sp, v, _, _ => ⟨k, r, sp, rfl, by simpa using v, rfl⟩
  | (b, w, x) :: xs, k, r, n, q, sp, v, hl, hb => by
    simp only [List.map_cons, List.sum_cons] at hl hb
    obtain ⟨k1, r1, e1, v1, l1, -⟩ := v.putSlice (numBytes b w x) fuel
      (by rw [numBytes_length]; omega) (by rw [numBytes_length]; omega)
    rw [numBytes_length] at v1
    obtain ⟨k2, r2, sp2, e2, v2, l2⟩ := putNums_view fuel xs v1
      (by rw [List.length_drop]; omega) (by rw [l1]; omega)
    refine ⟨k2, r2, sp2, ?_, ?_, by rw [l2, l1]⟩
    · simp only [Ring.putNums, Ring.putNum, e1, bind, Except.bind]
      exact e2
    · simpa only [List.map_cons, List.sum_cons, List.flatten_cons, ← List.append_assoc,
        ← Nat.add_assoc] using v2

theorem getNums_view {t : Target} {k : Kernel} (fuel : Nat) : ∀ (xs : List (Bool × Nat × Nat))
    {r : Ring} {n : Nat} {q sp : List Byte},
    View t k r n ((xs.map (fun x => numBytes x.1 x.2.1 x.2.2)).flatten ++ q) sp →
    ∃ r' sp', Ring.getNums t k fuel r (xs.map (fun x => (x.1, x.2.1))) =
        .ok (some (r', xs.map (fun x => x.2.2 % 256 ^ x.2.1))) ∧
      View t k r' n q sp' ∧ r'.len = r.len
  | [], r, n, q, sp, v => ⟨r, sp, rfl, by simpa using v, rfl⟩
  | (b, w, x) :: xs, r, n, q, sp, v => by
    simp only [List.map_cons, List.flatten_cons, List.append_assoc] at v
    obtain ⟨r1, e1, v1, l1⟩ := v.getNum b w fuel (by
      rw [List.length_append, numBytes_length]; omega)
    have hw := numBytes_length b w x
    rw [List.take_append_of_le_length (by omega), List.take_of_length_le (by omega)] at e1 v1
    rw [show List.drop w (numBytes b w x ++ ((xs.map (fun x => numBytes x.1 x.2.1 x.2.2)).flatten ++ q))
        = (xs.map (fun x => numBytes x.1 x.2.1 x.2.2)).flatten ++ q by
      rw [List.drop_append, hw, Nat.sub_self, List.drop_eq_nil_of_le (by omega)]; rfl] at v1
    obtain ⟨r2, sp2, e2, v2, l2⟩ := getNums_view fuel xs v1
    refine ⟨r2, sp2, ?_, v2, by rw [l2, l1]⟩
    simp only [List.map_cons, Ring.getNums, e1, bind, Except.bind, e2, numValue_numBytes]
    rfl

/-- `put` of one ring into another. -/
theorem putRing_view {t : Target} {k : Kernel} {d s : Ring} {n m : Nat} {qd spd qs sps : List Byte}
    (vd : View t k d n qd spd) (vs : View t k s m qs sps) (fuel : Nat)
    (hl : qs.length ≤ spd.length) (hb : n + qs.length < posBound t d.len) :
    ∃ k' d' s', Ring.putRing t (fuel + 2) k d s = .ok (some (k', d', s')) ∧
      View t k' d' (n + qs.length) (qd ++ qs) (spd.drop qs.length) ∧ d'.len = d.len ∧
      Uses t k d 1 k' d' ∧ s.consume t qs.length = .ok s' ∧ s'.len = s.len := by
  simp only [Ring.putRing, Ring.remainingMut, Ring.remaining, vd.writeLen, vs.readLen, bind,
    Except.bind]
  rw [if_neg (by omega)]
  by_cases hz : qs = []
  · subst hz
    obtain ⟨s', e, v, l, -⟩ := vs.consume 0
    have hs' : s' = s := by
      obtain ⟨o, rep⟩ := vs.rep
      exact Except.ok.inj (e.symm.trans (rep.consume_eq 0))
    subst hs'
    refine ⟨k, d, s', ?_, by simpa using vd, rfl, (Uses.refl _ _ _).mono (by omega), e, rfl⟩
    show Ring.putRingLoop t (fuel + 2) k d s' = _
    simp only [Ring.putRingLoop, Ring.remaining, vs.readLen, bind, Except.bind, List.length_nil]
    rfl
  · obtain ⟨a, k', d', h1, h2, h3, v, l, u⟩ := vd.put qs hl hb
    obtain ⟨s', e, v', l', -⟩ := vs.consume qs.length
    refine ⟨k', d', s', ?_, v, l, u, e, l'⟩
    show Ring.putRingLoop t (fuel + 2) k d s = _
    have hne : ¬ qs.length = 0 := fun h => hz (List.eq_nil_of_length_eq_zero h)
    have hr : s'.readLen t = .ok 0 := by
      rw [v'.readLen]; simp
    simp only [Ring.putRingLoop, Ring.remaining, vs.readLen, bind, Except.bind, if_neg hne,
      vs.chunk, h1, Nat.min_eq_left hl, List.take_length, h2, h3, Ring.advance, e, hr]
    rfl

end Vmap

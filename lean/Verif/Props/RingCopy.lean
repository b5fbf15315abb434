import Verif.Proofs.RingCopy
import Verif.Props.Copy
/-
Property theorems C168 and C169: `std::io::copy` between rings, and `read_exact` and `read_to_end` on
an `InfiniteRing`.
-/
namespace Vmap
open Kernel Spec

section
variable {tab : SysTable} {t : Target} {k0 : Kernel}

theorem Reach.holdsRing (wf : Wf t k0) {w : World} (h : Reach tab t k0 w) {i n : Nat} {r : Ring}
    (held : w.held i = some (.ring r n)) : ∃ s, HoldsRing t w i r.len s ∧ s.total = n ∧
      r.fillBuf t w.k = .ok s.q ∧ r.writeLen t = .ok s.spare.length := by
  obtain ⟨o, s, h1, h2, -⟩ := RingAt.inv ((h.inv wf).live i _ held).1
  exact ⟨s, ⟨r, o, by rw [held, h2], rfl, h1⟩, h2, h1.fillBuf_eq, h1.writeLen_eq⟩

theorem Reach.holdsInf (wf : Wf t k0) {w : World} (h : Reach tab t k0 w) {i n : Nat} {r : InfiniteRing}
    (held : w.held i = some (.inf r n)) : ∃ s, HoldsInf t w i r.len s ∧ s.total = n ∧
      r.fillBuf t w.k = .ok s.q := by
  obtain ⟨o, s, h1, h2, -⟩ := InfAt.inv ((h.inv wf).live i _ held).1
  exact ⟨s, ⟨r, o, by rw [held, h2], rfl, h1⟩, h2, h1.fillBuf_eq⟩

theorem HoldsRing.shows {w : World} {i cap : Nat} {s : Spec.Win} (g : HoldsRing t w i cap s) {r : Ring} {n : Nat}
    (held : w.held i = some (.ring r n)) : r.fillBuf t w.k = .ok s.q := by
  obtain ⟨r1, o, hi, -, rep⟩ := g
  rw [held] at hi; injection hi with hi; injection hi with hi hn; subst hi
  exact rep.fillBuf_eq

theorem HoldsInf.shows {w : World} {i cap : Nat} {s : Lossy} (g : HoldsInf t w i cap s) {r : InfiniteRing} {n : Nat}
    (held : w.held i = some (.inf r n)) : r.fillBuf t w.k = .ok s.q := by
  obtain ⟨r1, o, hi, -, rep⟩ := g
  rw [held] at hi; injection hi with hi; injection hi with hi hn; subst hi
  exact rep.fillBuf_eq

/-! ### C168 -/

/-- C168: `io::copy` from one `Ring` to another, in a program that holds any maps and rings.  If the readable
bytes of the source fit into the target, the result is `Ok` with their number, they are all appended to the
target, and the source is empty.  If not, the result is `WriteZero`, the target is filled, and the source has
lost whole pieces up to the first that did not fit.  Nothing is done but to call functions of the two rings. -/
theorem C168_ring_to_ring (wf : Wf t k0) {w : World} (h : Reach tab t k0 w) {i j n m : Nat} (hij : i ≠ j)
    {a b : Ring} (hi : w.held i = some (.ring a n)) (hj : w.held j = some (.ring b m)) {qa qb : List Byte}
    {room : Nat} (ha : a.fillBuf t w.k = .ok qa) (hb : b.fillBuf t w.k = .ok qb) (hr : b.writeLen t = .ok room)
    {size : Nat} (pos : 0 < size) {steps : Nat} (enough : qa.length < steps)
    (below : m + min qa.length room < posBound t (SeqWrite.writeCapacity b)) :
    ∃ a' b' w' n' m', Ring.copyToRing t size steps w.k a b = .ok (w'.k, a', b',
        some (if qa.length ≤ room then .ok qa.length else .error (.ofKind .writeZero))) ∧
      OnlyCalls tab t (fun l => l = i ∨ l = j) w w' ∧ Reach tab t k0 w' ∧
      w'.held i = some (.ring a' n') ∧ w'.held j = some (.ring b' m') ∧
      a'.fillBuf t w'.k = .ok (qa.drop (leaves size room qa.length)) ∧
      b'.fillBuf t w'.k = .ok (qb ++ qa.take room) := by
  obtain ⟨sa, ga, ta, fa, -⟩ := h.holdsRing wf hi
  obtain ⟨sb, gb, tb, fb, lb⟩ := h.holdsRing wf hj
  rw [ha] at fa; injection fa with fa
  rw [hb] at fb; injection fb with fb
  rw [hr] at lb; injection lb with lb
  subst fa fb lb ta tb
  obtain ⟨a', b', w', s', e, c, ⟨s1, hh1, g1, q1⟩, hh2, g2, q2⟩ := to_ring hij wf (ring_source (tab := tab) wf i a.len) pos steps
    (cap := b.len) 0 h ⟨sa, hi, ga, rfl⟩ hj gb below enough
  refine ⟨a', b', w', _, _, by rw [Ring.copyToRing, e, Nat.zero_add], c, c.reach h, hh1, hh2, ?_, ?_⟩
  · rw [g1.shows hh1, q1]
  · rw [g2.shows hh2, q2]

/-- C168: from an `InfiniteRing` to a `Ring`. -/
theorem C168_infinite_to_ring (wf : Wf t k0) {w : World} (h : Reach tab t k0 w) {i j n m : Nat} (hij : i ≠ j)
    {a : InfiniteRing} {b : Ring} (hi : w.held i = some (.inf a n)) (hj : w.held j = some (.ring b m))
    {qa qb : List Byte} {room : Nat} (ha : a.fillBuf t w.k = .ok qa) (hb : b.fillBuf t w.k = .ok qb)
    (hr : b.writeLen t = .ok room) {size : Nat} (pos : 0 < size) {steps : Nat} (enough : qa.length < steps)
    (below : m + min qa.length room < posBound t (SeqWrite.writeCapacity b)) :
    ∃ a' b' w' n' m', InfiniteRing.copyToRing t size steps w.k a b = .ok (w'.k, a', b',
        some (if qa.length ≤ room then .ok qa.length else .error (.ofKind .writeZero))) ∧
      OnlyCalls tab t (fun l => l = i ∨ l = j) w w' ∧ Reach tab t k0 w' ∧
      w'.held i = some (.inf a' n') ∧ w'.held j = some (.ring b' m') ∧
      a'.fillBuf t w'.k = .ok (qa.drop (leaves size room qa.length)) ∧
      b'.fillBuf t w'.k = .ok (qb ++ qa.take room) := by
  obtain ⟨sa, ga, ta, fa⟩ := h.holdsInf wf hi
  obtain ⟨sb, gb, tb, fb, lb⟩ := h.holdsRing wf hj
  rw [ha] at fa; injection fa with fa
  rw [hb] at fb; injection fb with fb
  rw [hr] at lb; injection lb with lb
  subst fa fb lb ta tb
  obtain ⟨a', b', w', s', e, c, ⟨s1, hh1, g1, q1⟩, hh2, g2, q2⟩ := to_ring hij wf (inf_source (tab := tab) wf i a.len) pos steps
    (cap := b.len) 0 h ⟨sa, hi, ga, rfl⟩ hj gb below enough
  refine ⟨a', b', w', _, _, by rw [InfiniteRing.copyToRing, e, Nat.zero_add], c, c.reach h, hh1, hh2, ?_, ?_⟩
  · rw [g1.shows hh1, q1]
  · rw [g2.shows hh2, q2]

/-- C168: from a `Ring` to an `InfiniteRing` always succeeds, and leaves the last bytes of all in the target. -/
theorem C168_ring_to_infinite (wf : Wf t k0) {w : World} (h : Reach tab t k0 w) {i j n m : Nat} (hij : i ≠ j)
    {a : Ring} {b : InfiniteRing} (hi : w.held i = some (.ring a n)) (hj : w.held j = some (.inf b m))
    {qa qb : List Byte} (ha : a.fillBuf t w.k = .ok qa) (hb : b.fillBuf t w.k = .ok qb)
    {size : Nat} (pos : 0 < size) {steps : Nat} (enough : qa.length < steps)
    (below : m + qa.length < posBound t (SeqWrite.writeCapacity b)) :
    ∃ a' b' w' n' m', Ring.copyToInfinite t size steps w.k a b = .ok (w'.k, a', b', some (.ok qa.length)) ∧
      OnlyCalls tab t (fun l => l = i ∨ l = j) w w' ∧ Reach tab t k0 w' ∧
      w'.held i = some (.ring a' n') ∧ w'.held j = some (.inf b' m') ∧ a'.fillBuf t w'.k = .ok [] ∧
      b'.fillBuf t w'.k = .ok (lastN (SeqWrite.writeCapacity b) (qb ++ qa)) := by
  obtain ⟨sa, ga, ta, fa, -⟩ := h.holdsRing wf hi
  obtain ⟨sb, gb, tb, fb⟩ := h.holdsInf wf hj
  rw [ha] at fa; injection fa with fa
  rw [hb] at fb; injection fb with fb
  subst fa fb ta tb
  obtain ⟨a', b', w', s', e, c, ⟨s1, hh1, g1, q1⟩, hh2, g2, q2⟩ := to_inf hij wf (ring_source (tab := tab) wf i a.len) pos steps
    (cap := b.len) 0 h ⟨sa, hi, ga, rfl⟩ hj gb below enough
  refine ⟨a', b', w', _, _, by rw [Ring.copyToInfinite, e, Nat.zero_add], c, c.reach h, hh1, hh2, ?_, ?_⟩
  · rw [g1.shows hh1, q1]
  · rw [g2.shows hh2, q2]; rfl

/-- C168: from one `InfiniteRing` to another. -/
theorem C168_infinite_to_infinite (wf : Wf t k0) {w : World} (h : Reach tab t k0 w) {i j n m : Nat} (hij : i ≠ j)
    {a b : InfiniteRing} (hi : w.held i = some (.inf a n)) (hj : w.held j = some (.inf b m))
    {qa qb : List Byte} (ha : a.fillBuf t w.k = .ok qa) (hb : b.fillBuf t w.k = .ok qb)
    {size : Nat} (pos : 0 < size) {steps : Nat} (enough : qa.length < steps)
    (below : m + qa.length < posBound t (SeqWrite.writeCapacity b)) :
    ∃ a' b' w' n' m', InfiniteRing.copyToInfinite t size steps w.k a b = .ok (w'.k, a', b', some (.ok qa.length)) ∧
      OnlyCalls tab t (fun l => l = i ∨ l = j) w w' ∧ Reach tab t k0 w' ∧
      w'.held i = some (.inf a' n') ∧ w'.held j = some (.inf b' m') ∧ a'.fillBuf t w'.k = .ok [] ∧
      b'.fillBuf t w'.k = .ok (lastN (SeqWrite.writeCapacity b) (qb ++ qa)) := by
  obtain ⟨sa, ga, ta, fa⟩ := h.holdsInf wf hi
  obtain ⟨sb, gb, tb, fb⟩ := h.holdsInf wf hj
  rw [ha] at fa; injection fa with fa
  rw [hb] at fb; injection fb with fb
  subst fa fb ta tb
  obtain ⟨a', b', w', s', e, c, ⟨s1, hh1, g1, q1⟩, hh2, g2, q2⟩ := to_inf hij wf (inf_source (tab := tab) wf i a.len) pos steps
    (cap := b.len) 0 h ⟨sa, hi, ga, rfl⟩ hj gb below enough
  refine ⟨a', b', w', _, _, by rw [InfiniteRing.copyToInfinite, e, Nat.zero_add], c, c.reach h, hh1, hh2, ?_, ?_⟩
  · rw [g1.shows hh1, q1]
  · rw [g2.shows hh2, q2]; rfl

theorem leaves_over {size room len : Nat} (pos : 0 < size) (over : room < len) : room < leaves size room len := by
  unfold leaves
  rw [if_neg (by omega), Nat.add_mul, Nat.one_mul]
  have h1 := Nat.div_add_mod room size
  have h2 := Nat.mod_lt room pos
  rw [Nat.mul_comm] at h1
  omega

/-- C168: a copy to a `Ring` that does not have the room always loses bytes: afterwards the two rings together
have fewer readable bytes than before, although the copy reports an error. -/
theorem C168_loses (wf : Wf t k0) {w : World} (h : Reach tab t k0 w) {i j n m : Nat} (hij : i ≠ j)
    {a b : Ring} (hi : w.held i = some (.ring a n)) (hj : w.held j = some (.ring b m)) {la lb room : Nat}
    (ha : a.readLen t = .ok la) (hb : b.readLen t = .ok lb) (hr : b.writeLen t = .ok room)
    {size : Nat} (pos : 0 < size) {steps : Nat} (enough : la < steps) (over : room < la)
    (below : m + room < posBound t (SeqWrite.writeCapacity b)) :
    ∃ a' b' k' e la' lb', Ring.copyToRing t size steps w.k a b = .ok (k', a', b', some (.error e)) ∧
      a'.readLen t = .ok la' ∧ b'.readLen t = .ok lb' ∧ la' + lb' < la + lb := by
  have v := h.inv wf
  obtain ⟨qa, spa, va⟩ := RingAt.view (v.live i _ hi).1
  obtain ⟨qb, spb, vb⟩ := RingAt.view (v.live j _ hj).1
  rw [va.readLen] at ha; injection ha with ha
  rw [vb.readLen] at hb; injection hb with hb
  subst ha hb
  obtain ⟨a', b', w', n', m', e, c, r', h1, h2, f1, f2⟩ := C168_ring_to_ring wf h hij hi hj va.fillBuf vb.fillBuf hr
    pos enough (by rw [Nat.min_eq_right (by omega)]; exact below)
  rw [if_neg (by omega)] at e
  have v' := r'.inv wf
  obtain ⟨qa', spa', va'⟩ := RingAt.view (v'.live i _ h1).1
  obtain ⟨qb', spb', vb'⟩ := RingAt.view (v'.live j _ h2).1
  rw [va'.fillBuf] at f1; injection f1 with f1
  rw [vb'.fillBuf] at f2; injection f2 with f2
  refine ⟨a', b', _, _, _, _, e, va'.readLen, vb'.readLen, ?_⟩
  have hl := leaves_over pos over
  rw [f1, f2, List.length_drop, List.length_append, List.length_take]
  omega

end

/-! ### A program with two rings and two infinite rings -/

theorem demo_rings (tab : SysTable) : ∃ (w : World) (a b : Ring) (c d : InfiniteRing),
    Reach tab ⟨.w64, true⟩ (demo 0) w ∧ w.held 0 = some (.ring a 0) ∧ w.held 1 = some (.inf c 0) ∧
    w.held 2 = some (.ring b 0) ∧ w.held 3 = some (.inf d 0) ∧ a.len = 16384 ∧ c.len = 4096 ∧ b.len = 8192 ∧
    d.len = 8192 := by
  have step : ∀ {w w' : World} {op : Op}, Reach tab ⟨.w64, true⟩ (demo 0) w →
      op.Sane ⟨.w64, true⟩ w → w.step tab ⟨.w64, true⟩ op = .ok w' →
      Reach tab ⟨.w64, true⟩ (demo 0) w' := fun a b c => .step a b c
  refine ⟨_, _, _, _, _, step (op := .newInf 8192) (step (op := .newRing 8192) (step (op := .newInf 4096)
    (step (op := .newRing 16384) .start ?_ rfl) ?_ rfl) ?_ rfl) ?_ rfl, rfl, rfl, rfl, rfl, rfl, rfl, rfl, rfl⟩
  · exact ⟨by show (16384 + 4096 : Nat) < _; decide, fun h => by cases h⟩
  · exact ⟨by show (4096 + 4096 : Nat) < _; decide, fun h => by cases h⟩
  · exact ⟨by show (8192 + 4096 : Nat) < _; decide, fun h => by cases h⟩
  · exact ⟨by show (8192 + 4096 : Nat) < _; decide, fun h => by cases h⟩

/-- The same after 10000 bytes were written to the first ring and 3000 to the first infinite ring. -/
theorem demo_filled (tab : SysTable) : ∃ (w : World) (a b : Ring) (c d : InfiniteRing),
    Reach tab ⟨.w64, true⟩ (demo 0) w ∧ w.held 0 = some (.ring a 10000) ∧ w.held 1 = some (.inf c 3000) ∧
    w.held 2 = some (.ring b 0) ∧ w.held 3 = some (.inf d 0) ∧ b.len = 8192 ∧ d.len = 8192 ∧
    a.fillBuf ⟨.w64, true⟩ w.k = .ok (List.replicate 10000 7) ∧
    c.fillBuf ⟨.w64, true⟩ w.k = .ok (List.replicate 3000 5) ∧
    b.fillBuf ⟨.w64, true⟩ w.k = .ok [] ∧ d.fillBuf ⟨.w64, true⟩ w.k = .ok [] ∧
    b.writeLen ⟨.w64, true⟩ = .ok 8192 := by
  obtain ⟨w, a, b, c, d, h, h0, h1, h2, h3, la, lc, lb, ld⟩ := demo_rings tab
  have wf : Wf ⟨.w64, true⟩ (demo 0) := demo_wf 0
  have emptyRing : ∀ {w : World} {i : Nat} {r : Ring}, Reach tab ⟨.w64, true⟩ (demo 0) w →
      w.held i = some (.ring r 0) → ∃ s, HoldsRing ⟨.w64, true⟩ w i r.len s ∧ s.total = 0 ∧ s.q = [] ∧
        s.spare.length = r.len := by
    intro w i r h hi
    obtain ⟨s, g, ht, -⟩ := h.holdsRing wf hi
    obtain ⟨r1, o, hi', -, rep⟩ := id g
    rw [hi] at hi'; injection hi' with hi'; injection hi' with hi' hn; subst hi'
    have e1 := rep.qlen
    have e2 := rep.total
    have e3 := rep.len_eq
    have e4 : s.q = [] := List.eq_nil_of_length_eq_zero (by omega)
    rw [e4] at e3
    exact ⟨s, g, ht, e4, by simpa using e3⟩
  have emptyInf : ∀ {w : World} {i : Nat} {r : InfiniteRing}, Reach tab ⟨.w64, true⟩ (demo 0) w →
      w.held i = some (.inf r 0) → ∃ s, HoldsInf ⟨.w64, true⟩ w i r.len s ∧ s.total = 0 ∧ s.q = [] ∧
        s.all.length = r.len := by
    intro w i r h hi
    obtain ⟨s, g, ht, -⟩ := h.holdsInf wf hi
    obtain ⟨r1, o, hi', -, rep⟩ := id g
    rw [hi] at hi'; injection hi' with hi'; injection hi' with hi' hn; subst hi'
    have e1 := rep.qlen
    have e2 := rep.total
    have e3 := rep.le
    exact ⟨s, g, ht, List.eq_nil_of_length_eq_zero (by omega), rep.all_len⟩
  obtain ⟨sa, ga, ta, qa, pa⟩ := emptyRing h h0
  rw [la] at ga pa
  have src := (ring_sink (tab := tab) wf 0 16384).write h ⟨by rw [h0, ta], ga⟩ (List.replicate 10000 7)
    (by simp only [ta, pa, List.length_replicate]; decide)
  obtain ⟨a', w1, -, c1, hh1, g1⟩ := src
  have r1 := c1.reach h
  have k1 : ∀ i x, i ≠ 0 → w.held i = some x → w1.held i = some x := by
    intro i x hi hx
    refine keep_calls (tab := tab) (t := ⟨.w64, true⟩) (k0 := demo 0) (H := fun w => w.held i = some x) hi ?_ h hx c1
    intro w r hw w' op sane st ht
    obtain ⟨S, -, hS⟩ := (step_ok tab (r.inv wf) sane st).fx
    exact (hS i _ hw ht).1
  obtain ⟨sc, gc, tc, qc, pc⟩ := emptyInf r1 (k1 1 _ (by decide) h1)
  rw [lc] at gc pc
  obtain ⟨c', w2, -, c2, hh2, g2⟩ := (inf_sink (tab := tab) wf 1 4096).write r1
    ⟨by rw [k1 1 _ (by decide) h1, tc], gc⟩ (List.replicate 3000 5)
    (by simp only [tc, List.length_replicate]; decide)
  have r2 := c2.reach r1
  have k2 : ∀ i x, i ≠ 1 → w1.held i = some x → w2.held i = some x := by
    intro i x hi hx
    refine keep_calls (tab := tab) (t := ⟨.w64, true⟩) (k0 := demo 0) (H := fun w => w.held i = some x) hi ?_ r1 hx c2
    intro w r hw w' op sane st ht
    obtain ⟨S, -, hS⟩ := (step_ok tab (r.inv wf) sane st).fx
    exact (hS i _ hw ht).1
  obtain ⟨hh3, g3⟩ := keep_calls (tab := tab) (t := ⟨.w64, true⟩) (k0 := demo 0)
    (H := fun w => w.held 0 = some (.ring a' (sa.step (.write (List.replicate 10000 7))).1.total) ∧
      HoldsRing ⟨.w64, true⟩ w 0 16384 (sa.step (.write (List.replicate 10000 7))).1) (by decide)
    (fun r k => (ring_sink (tab := tab) wf 0 16384).keep r k) r1 ⟨hh1, g1⟩ c2
  have hb2 := k2 2 _ (by decide) (k1 2 _ (by decide) h2)
  have hd2 := k2 3 _ (by decide) (k1 3 _ (by decide) h3)
  obtain ⟨sb, gb, tb, qb, pb⟩ := emptyRing r2 hb2
  obtain ⟨sd, gd, td, qd, pd⟩ := emptyInf r2 hd2
  have m1 : min (List.replicate 10000 (7 : Byte)).length sa.spare.length = 10000 := by
    rw [pa, List.length_replicate]; decide
  have l1 : lastN 4096 (List.replicate 3000 (5 : Byte)) = List.replicate 3000 5 := lastN_all (by rw [List.length_replicate]; decide)
  refine ⟨w2, a', b, c', d, r2, ?_, ?_, hb2, hd2, lb, ld, ?_, ?_, ?_, ?_, ?_⟩
  · rw [hh3]; simp only [Win.step, m1, ta, Nat.zero_add]
  · rw [hh2, l1]; simp only [Lossy.append, tc, List.length_replicate, Nat.zero_add]
  · rw [g3.shows hh3]
    simp only [Win.step, m1, qa, List.nil_append]
    rw [List.take_of_length_le (by rw [List.length_replicate]; decide)]
  · rw [g2.shows hh2, l1, append_q pc, qc, List.nil_append, l1]
  · rw [gb.shows hb2, qb]
  · rw [gd.shows hd2, qd]
  · obtain ⟨v, -, -⟩ := gb.view wf r2 hb2
    rw [v.writeLen, pb, lb]

-- 10000 bytes do not fit into 8192, with the standard library's pieces of 8192; 3000 bytes do; an infinite
-- ring takes any number
example (tab : SysTable) : Wf ⟨.w64, true⟩ (demo 0) ∧ ∃ (w : World) (a b : Ring) (c d : InfiniteRing),
    Reach tab ⟨.w64, true⟩ (demo 0) w ∧ w.held 0 = some (.ring a 10000) ∧ w.held 1 = some (.inf c 3000) ∧
    w.held 2 = some (.ring b 0) ∧ w.held 3 = some (.inf d 0) ∧ (0 : Nat) ≠ 2 ∧ (0 : Nat) ≠ 3 ∧ (1 : Nat) ≠ 2 ∧
    (1 : Nat) ≠ 3 ∧
    a.fillBuf ⟨.w64, true⟩ w.k = .ok (List.replicate 10000 7) ∧
    c.fillBuf ⟨.w64, true⟩ w.k = .ok (List.replicate 3000 5) ∧
    b.fillBuf ⟨.w64, true⟩ w.k = .ok [] ∧ d.fillBuf ⟨.w64, true⟩ w.k = .ok [] ∧
    b.writeLen ⟨.w64, true⟩ = .ok 8192 ∧
    0 + min (List.replicate 10000 (7 : Byte)).length 8192 < posBound ⟨.w64, true⟩ (SeqWrite.writeCapacity b) ∧
    0 + min (List.replicate 3000 (5 : Byte)).length 8192 < posBound ⟨.w64, true⟩ (SeqWrite.writeCapacity b) ∧
    0 + (List.replicate 10000 (7 : Byte)).length < posBound ⟨.w64, true⟩ (SeqWrite.writeCapacity d) ∧
    leaves 8192 8192 10000 = 16384 ∧ leaves 8192 8192 3000 = 3000 := by
  obtain ⟨w, a, b, c, d, h, h0, h1, h2, h3, lb, ld, f1, f2, f3, f4, f5⟩ := demo_filled tab
  refine ⟨demo_wf 0, w, a, b, c, d, h, h0, h1, h2, h3, by decide, by decide, by decide, by decide, f1, f2, f3, f4,
    f5, ?_, ?_, ?_, by decide, by decide⟩
  · rw [List.length_replicate, show SeqWrite.writeCapacity b = 8192 from lb]; decide
  · rw [List.length_replicate, show SeqWrite.writeCapacity b = 8192 from lb]; decide
  · rw [List.length_replicate, show SeqWrite.writeCapacity d = 8192 from ld]; decide

-- and the copy of 10000 bytes really loses 1808 of them
example (tab : SysTable) : ∃ (w : World) (a b a' b' : Ring) (k' : Kernel), Reach tab ⟨.w64, true⟩ (demo 0) w ∧
    a.fillBuf ⟨.w64, true⟩ w.k = .ok (List.replicate 10000 7) ∧ b.fillBuf ⟨.w64, true⟩ w.k = .ok [] ∧
    Ring.copyToRing ⟨.w64, true⟩ 8192 20000 w.k a b = .ok (k', a', b', some (.error (.ofKind .writeZero))) ∧
    a'.fillBuf ⟨.w64, true⟩ k' = .ok [] ∧ b'.fillBuf ⟨.w64, true⟩ k' = .ok (List.replicate 8192 7) := by
  obtain ⟨w, a, b, c, d, h, h0, h1, h2, h3, lb, ld, f1, f2, f3, f4, f5⟩ := demo_filled tab
  obtain ⟨a', b', w', n', m', e, -, -, -, -, g1, g2⟩ := C168_ring_to_ring (demo_wf 0) h (by decide : (0 : Nat) ≠ 2)
    h0 h2 f1 f3 f5 (size := 8192) (by decide) (steps := 20000) (by rw [List.length_replicate]; decide)
    (by rw [List.length_replicate, show SeqWrite.writeCapacity b = 8192 from lb]; decide)
  rw [List.length_replicate, if_neg (by decide)] at e
  rw [List.length_replicate, show leaves 8192 8192 10000 = 16384 by decide,
    List.drop_eq_nil_of_le (by rw [List.length_replicate]; decide)] at g1
  rw [List.nil_append, List.take_replicate, show min 8192 10000 = 8192 by decide] at g2
  exact ⟨w, a, b, a', b', _, h, f1, f3, e, g1, g2⟩

/-! ### C169 -/

theorem InfView.read {t : Target} {k : Kernel} {r : InfiniteRing} {n : Nat} {q : List Byte}
    (h : InfView t k r n q) (m : Nat) :
    ∃ r', r.read t k m = .ok (r', q.take m) ∧ InfView t k r' n (q.drop m) := by
  obtain ⟨o, old, h1⟩ := h.rep
  obtain ⟨k', r', e, h', -, -, -, -⟩ := inf_step h1 (.read m) h.below trivial
  have a := InfAt.call (op := .read m) (w := r.len) h.at_ rfl (by simp) h.below trivial e
  simp only [InfiniteRing.exec, bind, Except.bind] at e
  cases hr : r.read t k m with
  | error f => rw [hr] at e; cases e
  | ok x =>
    rw [hr] at e
    obtain ⟨r1, bs⟩ := x
    simp only [pure, Except.pure, Lossy.step, Except.ok.injEq, Prod.mk.injEq, Resp.bytes.injEq] at e
    obtain ⟨⟨e1, e2⟩, e3⟩ := e
    subst e1 e2 e3
    exact ⟨r1, rfl, a, o, _, h'⟩

/-- C169, `read_exact` on an `InfiniteRing`: the next `m` bytes, or all bytes and `UnexpectedEof` when fewer are
readable. -/
theorem C169_infinite_read_exact (t : Target) (k : Kernel) (r : InfiniteRing) (n : Nat) (h : InfAt t k r n)
    (q : List Byte) (hq : r.fillBuf t k = .ok q) (m : Nat) :
    ∃ r', r.readExact t k m [] = .ok (r', q.take m,
        if m ≤ q.length then .ok () else .error (.ofKind .unexpectedEof)) ∧
      r'.fillBuf t k = .ok (q.drop m) ∧ InfAt t k r' n := by
  obtain ⟨q', v⟩ := h.view
  rw [v.fillBuf] at hq
  injection hq with hq
  subst hq
  rw [InfiniteRing.readExact]
  by_cases hz : m = 0
  · subst hz
    exact ⟨r, by simp, by simp [v.fillBuf], h⟩
  · rw [dif_neg hz]
    obtain ⟨r', e, v'⟩ := v.read m
    have hlen : (q'.take m).length = min m q'.length := by simp
    rw [e]
    simp only
    by_cases hb : (q'.take m).length = 0
    · rw [dif_pos hb]
      refine ⟨r', ?_, v'.fillBuf, v'.at_⟩
      rw [if_neg (by omega), List.eq_nil_of_length_eq_zero hb]
    · rw [dif_neg hb, if_neg (by omega)]
      by_cases hf : m ≤ q'.length
      · refine ⟨r', ?_, v'.fillBuf, v'.at_⟩
        rw [InfiniteRing.readExact, dif_pos (by omega), if_pos hf, List.nil_append]
      · rw [InfiniteRing.readExact, dif_neg (by omega)]
        obtain ⟨r2, e2, v2⟩ := v'.read (m - (q'.take m).length)
        have hd : q'.drop m = [] := List.drop_eq_nil_of_le (by omega)
        rw [hd, List.take_nil] at e2
        rw [hd, List.drop_nil] at v2
        rw [e2, if_neg hf, hd]
        refine ⟨r2, ?_, v2.fillBuf, v2.at_⟩
        simp only [List.length_nil, dite_true, List.nil_append]

/-- C169, `read_to_end` on an `InfiniteRing`: all readable bytes, whatever positive sizes the destination
vector offers; afterwards the ring is empty. -/
theorem C169_infinite_read_to_end (t : Target) (k : Kernel) (r : InfiniteRing) (n : Nat) (h : InfAt t k r n)
    (q : List Byte) (hq : r.fillBuf t k = .ok q) (sz : Nat → Nat) (hsz : ∀ i, 0 < sz i)
    (fuel : Nat) (hf : q.length < fuel) :
    ∃ r', InfiniteRing.readToEnd t k fuel sz r [] = .ok (some (r', q)) ∧ r'.fillBuf t k = .ok [] ∧
      InfAt t k r' n := by
  have main : ∀ (fuel : Nat) (sz : Nat → Nat) (r : InfiniteRing) (q acc : List Byte), (∀ i, 0 < sz i) →
      InfView t k r n q → q.length < fuel →
      ∃ r', InfiniteRing.readToEnd t k fuel sz r acc = .ok (some (r', acc ++ q)) ∧ InfView t k r' n [] := by
    intro fuel
    induction fuel with
    | zero => intro _ _ _ _ _ _ hf; omega
    | succ fuel ih =>
      intro sz r q acc hsz v hf
      obtain ⟨r', e, v'⟩ := v.read (sz 0)
      have h0 := hsz 0
      have hlen : (q.take (sz 0)).length = min (sz 0) q.length := by simp
      simp only [InfiniteRing.readToEnd, e, bind, Except.bind]
      by_cases hb : (q.take (sz 0)).length = 0
      · have hq : q = [] := List.eq_nil_of_length_eq_zero (by omega)
        subst hq
        rw [if_pos hb]
        exact ⟨r', by simp [pure, Except.pure], by simpa using v'⟩
      · rw [if_neg hb]
        obtain ⟨r2, e2, v2⟩ := ih (fun i => sz (i + 1)) r' (q.drop (sz 0)) (acc ++ q.take (sz 0))
          (fun i => hsz _) v' (by rw [List.length_drop]; omega)
        exact ⟨r2, by rw [e2, List.append_assoc, List.take_append_drop], v2⟩
  obtain ⟨q', v⟩ := h.view
  rw [v.fillBuf] at hq
  injection hq with hq
  subst hq
  obtain ⟨r', e, v'⟩ := main fuel sz r q' [] hsz v hf
  exact ⟨r', by simpa using e, v'.fillBuf, v'.at_⟩

-- a reachable infinite ring holding [1, 2, 3]: two bytes can be had, five cannot
example : ∃ k r q, InfAt ⟨.w64, true⟩ k r 3 ∧ r.fillBuf ⟨.w64, true⟩ k = .ok q ∧ q.length < 4 ∧
    (2 ≤ q.length) ∧ ¬ (5 ≤ q.length) := by
  obtain ⟨k, r, h, hq⟩ := demo_infAt
  exact ⟨k, r, _, h, hq, by decide, by decide, by decide⟩

end Vmap

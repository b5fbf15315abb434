import Verif.Proofs.RingAdapt
import Verif.Props.RingCopy
/-
Property theorems C170: reading a ring through the adapters of the standard library, and the vectored calls.
-/
namespace Vmap
open Spec Kernel

section
variable {t : Target} {k : Kernel}

theorem RingAt.feeding {r : Ring} {n : Nat} (h : RingAt t k r n) {q : List Byte} (hq : r.fillBuf t k = .ok q) :
    ∃ sp, View t k r n q sp := by
  obtain ⟨q', sp, v⟩ := h.view
  rw [v.fillBuf] at hq
  injection hq with hq
  subst hq
  exact ⟨sp, v⟩

theorem InfAt.feeding {r : InfiniteRing} {n : Nat} (h : InfAt t k r n) {q : List Byte}
    (hq : r.fillBuf t k = .ok q) : InfView t k r n q := by
  obtain ⟨q', v⟩ := h.view
  rw [v.fillBuf] at hq
  injection hq with hq
  subst hq
  exact v

theorem take_all {ρ : Type} {rd : RingRead ρ} {H : ρ → List Byte → Prop} (f : Feeds rd H) {r : ρ} {q : List Byte}
    (h : H r q) (limit : Nat) {sz : Nat → Nat} (hsz : ∀ i, 0 < sz i) {fuel : Nat} (hf : min limit q.length < fuel) :
    ∃ r', readAll (takeRead rd) fuel sz (r, limit) [] =
        .ok (some ((r', limit - min limit q.length), q.take limit)) ∧ H r' (q.drop limit) := by
  have hl : (q.take limit).length = min limit q.length := List.length_take
  obtain ⟨⟨r', left⟩, e, all, h1, h2, h3, h4⟩ := readAll_feeds
    (take_feeds f (q.drop limit) (limit - min limit q.length)) fuel sz (r, limit) (q.take limit) []
    hsz ⟨q, h, rfl, rfl, by simp only [hl]; omega⟩ (by rw [hl]; exact hf)
  simp only [List.length_nil, Nat.add_zero] at h1 h2 h3 h4
  have ha := List.take_append_drop left all
  rw [← h2, h3, List.nil_append] at ha
  rw [List.nil_append] at e
  subst h4
  exact ⟨r', e, by rw [ha]; exact h1⟩

/-- C170: `take(limit)` of a `Ring`, read to its end, gives the first `limit` readable bytes, or all if there are
fewer; the other bytes stay in the ring, and the adapter knows how many bytes it could still have given. -/
theorem C170_ring_take {r : Ring} {n : Nat} (h : RingAt t k r n) {q : List Byte} (hq : r.fillBuf t k = .ok q)
    (limit : Nat) {sz : Nat → Nat} (hsz : ∀ i, 0 < sz i) {fuel : Nat} (hf : min limit q.length < fuel) :
    ∃ r', readAll (takeRead (fun (r : Ring) m => r.read t k m)) fuel sz (r, limit) [] =
        .ok (some ((r', limit - min limit q.length), q.take limit)) ∧
      r'.fillBuf t k = .ok (q.drop limit) ∧ RingAt t k r' n := by
  obtain ⟨r', e, sp, v⟩ := take_all (ring_feeds (t := t) (k := k) n) (h.feeding hq) limit hsz hf
  exact ⟨r', e, v.fillBuf, v.at_⟩

/-- C170: the same for an `InfiniteRing`. -/
theorem C170_infinite_take {r : InfiniteRing} {n : Nat} (h : InfAt t k r n) {q : List Byte}
    (hq : r.fillBuf t k = .ok q) (limit : Nat) {sz : Nat → Nat} (hsz : ∀ i, 0 < sz i) {fuel : Nat}
    (hf : min limit q.length < fuel) :
    ∃ r', readAll (takeRead (fun (r : InfiniteRing) m => r.read t k m)) fuel sz (r, limit) [] =
        .ok (some ((r', limit - min limit q.length), q.take limit)) ∧
      r'.fillBuf t k = .ok (q.drop limit) ∧ InfAt t k r' n := by
  obtain ⟨r', e, v⟩ := take_all (inf_feeds (t := t) (k := k) n) (h.feeding hq) limit hsz hf
  exact ⟨r', e, v.fillBuf, v.at_⟩

/-- C170: `bytes()` of a `Ring` yields exactly the readable bytes, one by one, and then ends; the ring is empty. -/
theorem C170_ring_bytes {r : Ring} {n : Nat} (h : RingAt t k r n) {q : List Byte} (hq : r.fillBuf t k = .ok q)
    {steps : Nat} (hs : q.length < steps) :
    ∃ r', collectBytes (fun (r : Ring) m => r.read t k m) steps r = .ok (some (r', q)) ∧
      r'.fillBuf t k = .ok [] ∧ RingAt t k r' n := by
  obtain ⟨r', e, sp, v⟩ := collectBytes_feeds (ring_feeds (t := t) (k := k) n) steps r q (h.feeding hq) hs
  exact ⟨r', e, v.fillBuf, v.at_⟩

/-- C170: the same for an `InfiniteRing`. -/
theorem C170_infinite_bytes {r : InfiniteRing} {n : Nat} (h : InfAt t k r n) {q : List Byte}
    (hq : r.fillBuf t k = .ok q) {steps : Nat} (hs : q.length < steps) :
    ∃ r', collectBytes (fun (r : InfiniteRing) m => r.read t k m) steps r = .ok (some (r', q)) ∧
      r'.fillBuf t k = .ok [] ∧ InfAt t k r' n := by
  obtain ⟨r', e, v⟩ := collectBytes_feeds (inf_feeds (t := t) (k := k) n) steps r q (h.feeding hq) hs
  exact ⟨r', e, v.fillBuf, v.at_⟩

/-- C170: `a.chain(b)` of two `Ring`s, read to its end, gives the readable bytes of `a` and then those of `b`;
both are empty. -/
theorem C170_ring_chain {a b : Ring} {n m : Nat} (ha : RingAt t k a n) (hb : RingAt t k b m) {qa qb : List Byte}
    (hqa : a.fillBuf t k = .ok qa) (hqb : b.fillBuf t k = .ok qb) {sz : Nat → Nat} (hsz : ∀ i, 0 < sz i)
    {fuel : Nat} (hf : qa.length + qb.length < fuel) :
    ∃ a' b' d, readAll (chainRead (fun (r : Ring) m => r.read t k m) (fun (r : Ring) m => r.read t k m)) fuel sz
        (a, b, false) [] = .ok (some ((a', b', d), qa ++ qb)) ∧
      a'.fillBuf t k = .ok [] ∧ b'.fillBuf t k = .ok [] ∧ RingAt t k a' n ∧ RingAt t k b' m := by
  obtain ⟨a', b', d, e, ⟨sp, v⟩, ⟨sp', v'⟩⟩ := readAll_chain (ring_feeds (t := t) (k := k) n)
    (ring_feeds (t := t) (k := k) m) fuel sz a b qa qb [] hsz (ha.feeding hqa) (hb.feeding hqb) hf
  exact ⟨a', b', d, by simpa using e, v.fillBuf, v'.fillBuf, v.at_, v'.at_⟩

/-- C170: the same for an `InfiniteRing` followed by a `Ring`. -/
theorem C170_infinite_chain {a : InfiniteRing} {b : Ring} {n m : Nat} (ha : InfAt t k a n) (hb : RingAt t k b m)
    {qa qb : List Byte} (hqa : a.fillBuf t k = .ok qa) (hqb : b.fillBuf t k = .ok qb) {sz : Nat → Nat}
    (hsz : ∀ i, 0 < sz i) {fuel : Nat} (hf : qa.length + qb.length < fuel) :
    ∃ a' b' d, readAll (chainRead (fun (r : InfiniteRing) m => r.read t k m) (fun (r : Ring) m => r.read t k m))
        fuel sz (a, b, false) [] = .ok (some ((a', b', d), qa ++ qb)) ∧
      a'.fillBuf t k = .ok [] ∧ b'.fillBuf t k = .ok [] ∧ InfAt t k a' n ∧ RingAt t k b' m := by
  obtain ⟨a', b', d, e, v, ⟨sp', v'⟩⟩ := readAll_chain (inf_feeds (t := t) (k := k) n)
    (ring_feeds (t := t) (k := k) m) fuel sz a b qa qb [] hsz (ha.feeding hqa) (hb.feeding hqb) hf
  exact ⟨a', b', d, by simpa using e, v.fillBuf, v'.fillBuf, v.at_, v'.at_⟩

/-- C170: `read_vectored` on a `Ring` fills only the first slice that is not empty. -/
theorem C170_ring_read_vectored {r : Ring} {n : Nat} (h : RingAt t k r n) {q : List Byte}
    (hq : r.fillBuf t k = .ok q) {lens : List Nat} {m : Nat} (first : FirstLen lens m) :
    ∃ r', readVectored (fun (r : Ring) m => r.read t k m) r lens = .ok (r', q.take m) ∧
      r'.fillBuf t k = .ok (q.drop m) ∧ RingAt t k r' n := by
  obtain ⟨r', e, sp, v⟩ := ring_feeds (t := t) (k := k) n r q (h.feeding hq) m
  exact ⟨r', by rw [readVectored, first_len first]; exact e, v.fillBuf, v.at_⟩

/-- C170: the same for an `InfiniteRing`. -/
theorem C170_infinite_read_vectored {r : InfiniteRing} {n : Nat} (h : InfAt t k r n) {q : List Byte}
    (hq : r.fillBuf t k = .ok q) {lens : List Nat} {m : Nat} (first : FirstLen lens m) :
    ∃ r', readVectored (fun (r : InfiniteRing) m => r.read t k m) r lens = .ok (r', q.take m) ∧
      r'.fillBuf t k = .ok (q.drop m) ∧ InfAt t k r' n := by
  obtain ⟨r', e, v⟩ := inf_feeds (t := t) (k := k) n r q (h.feeding hq) m
  exact ⟨r', by rw [readVectored, first_len first]; exact e, v.fillBuf, v.at_⟩

/-- C170: `write_vectored` on a `Ring` appends only what fits of the first slice that is not empty. -/
theorem C170_ring_write_vectored {r : Ring} {n : Nat} (h : RingAt t k r n) {q : List Byte}
    (hq : r.fillBuf t k = .ok q) {room : Nat} (hr : r.writeLen t = .ok room) {bufs : List (List Byte)} {b : List Byte}
    (first : FirstFull bufs b) (below : n + min b.length room < posBound t (SeqWrite.writeCapacity r)) :
    ∃ k' r', writeVectored (fun bs => r.write t k bs) bufs = .ok (k', r', min b.length room) ∧
      r'.fillBuf t k' = .ok (q ++ b.take room) ∧ RingAt t k' r' (n + min b.length room) := by
  obtain ⟨sp, v⟩ := h.feeding hq
  rw [v.writeLen] at hr
  injection hr with hr
  subst hr
  obtain ⟨k', r', e, v', -, -⟩ := v.write b below
  exact ⟨k', r', by rw [writeVectored, first_full first]; exact e, v'.fillBuf, v'.at_⟩

/-- C170: on an `InfiniteRing` it appends the first `capacity` bytes of that slice and keeps the last `capacity`
bytes. -/
theorem C170_infinite_write_vectored {r : InfiniteRing} {n : Nat} (h : InfAt t k r n) {q : List Byte}
    (hq : r.fillBuf t k = .ok q) {bufs : List (List Byte)} {b : List Byte} (first : FirstFull bufs b)
    (below : n + min b.length (SeqWrite.writeCapacity r) < posBound t (SeqWrite.writeCapacity r)) :
    ∃ k' r', writeVectored (fun bs => r.write t k bs) bufs = .ok (k', r', min b.length (SeqWrite.writeCapacity r)) ∧
      r'.fillBuf t k' = .ok (lastN (SeqWrite.writeCapacity r) (q ++ b.take (SeqWrite.writeCapacity r))) ∧
      InfAt t k' r' (n + min b.length (SeqWrite.writeCapacity r)) := by
  have v := h.feeding hq
  obtain ⟨o, old, h1⟩ := v.rep
  have hc := h1.all_len
  simp only [SeqWrite.writeCapacity] at below ⊢
  have ht : (Lossy.step ⟨old, q, n⟩ (.write b)).1.total = n + min b.length r.len := by
    simp [Lossy.step, Lossy.append, hc]
  obtain ⟨k', r', e, h', -, -, -, -⟩ := inf_step h1 (.write b) (by rw [ht]; exact below) trivial
  have a := InfAt.call (op := .write b) (w := r.len) h rfl (by simp) below trivial e
  simp only [InfiniteRing.exec, bind, Except.bind] at e
  cases hr : r.write t k b with
  | error f => rw [hr] at e; cases e
  | ok x =>
    rw [hr] at e
    obtain ⟨k1, r1, m⟩ := x
    simp only [pure, Except.pure, Lossy.step, Except.ok.injEq, Prod.mk.injEq, Resp.num.injEq, hc] at e
    obtain ⟨⟨e1, e2⟩, e3⟩ := e
    subst e1 e2 e3
    refine ⟨k1, r1, by rw [writeVectored, first_full first]; exact hr, ?_, a⟩
    rw [h'.fillBuf_eq]
    simp only [Lossy.step, hc]
    rw [append_q hc]
    congr 3
    rw [List.take_eq_take_iff]; omega

end

-- reachable rings holding [1, 2, 3]; the first slice that is not empty of `[], [9], [8, 7]`
example : (∃ k r q, RingAt ⟨.w64, true⟩ k r 3 ∧ r.fillBuf ⟨.w64, true⟩ k = .ok q ∧ q = [1, 2, 3] ∧
      min 2 q.length < 10 ∧ q.length + q.length < 10) ∧
    (∃ k r q, InfAt ⟨.w64, true⟩ k r 3 ∧ r.fillBuf ⟨.w64, true⟩ k = .ok q ∧ q = [1, 2, 3] ∧
      3 + min [(9 : Byte)].length (SeqWrite.writeCapacity r) < posBound ⟨.w64, true⟩ (SeqWrite.writeCapacity r)) ∧
    FirstFull [[], [9], [8, 7]] [9] ∧ FirstLen [0, 1, 2] 1 := by
  refine ⟨?_, ?_, .later (.here (by simp)), .later (.here (by simp))⟩
  · obtain ⟨k, r, h, hq⟩ := demo_ringAt
    exact ⟨k, r, _, h, hq, rfl, by decide, by decide⟩
  · obtain ⟨k, r, h, hq⟩ := demo_infAt
    refine ⟨k, r, _, h, hq, rfl, ?_⟩
    have : (12 : Nat) < posBound ⟨.w64, true⟩ r.len := by
      unfold posBound; split <;> simp [lim64, Target.lim, Width.bits]
    have : min [(9 : Byte)].length r.len ≤ 1 := Nat.min_le_left _ _
    simp only [SeqWrite.writeCapacity]
    omega

-- `take(2)`, then `bytes()`, of that ring
example : ∃ k r r' r'', r.fillBuf ⟨.w64, true⟩ k = .ok [1, 2, 3] ∧
    readAll (takeRead (fun (r : Ring) m => r.read ⟨.w64, true⟩ k m)) 10 (fun _ => 32) (r, 2) [] =
      .ok (some ((r', 0), [1, 2])) ∧
    collectBytes (fun (r : Ring) m => r.read ⟨.w64, true⟩ k m) 10 r' = .ok (some (r'', [3])) := by
  obtain ⟨k, r, h, hq⟩ := demo_ringAt
  obtain ⟨r', e, f, h'⟩ := C170_ring_take h hq 2 (sz := fun _ => 32) (fun _ => by decide) (fuel := 10) (by decide)
  obtain ⟨r'', e', -⟩ := C170_ring_bytes h' f (steps := 10) (by decide)
  exact ⟨k, r, r', r'', hq, e, e'⟩

-- a program with several rings, of 10000, 3000 and 0 bytes
example (tab : SysTable) : ∃ (k : Kernel) (a b : Ring) (c : InfiniteRing), RingAt ⟨.w64, true⟩ k a 10000 ∧
    RingAt ⟨.w64, true⟩ k b 0 ∧ InfAt ⟨.w64, true⟩ k c 3000 ∧
    a.fillBuf ⟨.w64, true⟩ k = .ok (List.replicate 10000 7) ∧ b.fillBuf ⟨.w64, true⟩ k = .ok [] ∧
    c.fillBuf ⟨.w64, true⟩ k = .ok (List.replicate 3000 5) := by
  obtain ⟨w, a, b, c, d, h, h0, h1, h2, h3, lb, ld, f1, f2, f3, f4, f5⟩ := demo_filled tab
  have v := h.inv (demo_wf 0)
  exact ⟨w.k, a, b, c, (v.live 0 _ h0).1, (v.live 2 _ h2).1, (v.live 1 _ h1).1, f1, f3, f2⟩

end Vmap

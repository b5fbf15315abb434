import Verif.Spec.BufWorld
import Verif.Proofs.WorldStep
/- Helper lemmas: a call on a buffered reader or writer is a sequence of calls on its ring. -/
namespace Vmap
open Kernel Spec

theorem bind_ok {α β : Type} {x : Exec α} {f : α → Exec β} {y : β} (h : (x >>= f) = .ok y) :
    ∃ a, x = .ok a ∧ f a = .ok y := by
  cases x with
  | error e => cases h
  | ok a => exact ⟨a, rfl, h⟩

/-- The calls that append. -/
def grows : RingOp → Bool
  | .write _ => true
  | .feed _ => true
  | _ => false

/-- From `(k, r)` to `(k', r')` by calls on the ring, at most `c` of which append. -/
def Uses (t : Target) (k : Kernel) (r : Ring) (c : Nat) (k' : Kernel) (r' : Ring) : Prop :=
  ∃ ops xs, r.execAll t k ops = .ok ((k', r'), xs) ∧ ops.countP grows ≤ c

theorem Uses.refl (t : Target) (k : Kernel) (r : Ring) : Uses t k r 0 k r :=
  ⟨[], [], rfl, Nat.le_refl _⟩

theorem execAll_append {t : Target} : ∀ {ops : List RingOp} {k k1 k2 : Kernel} {r r1 r2 : Ring}
    {xs ops' ys}, r.execAll t k ops = .ok ((k1, r1), xs) →
    r1.execAll t k1 ops' = .ok ((k2, r2), ys) →
    r.execAll t k (ops ++ ops') = .ok ((k2, r2), xs ++ ys) := by
  intro ops
  induction ops with
  | nil =>
    intro k k1 k2 r r1 r2 xs ops' ys h1 h2
    injection h1 with h1; injection h1 with h1 h3; injection h1 with h1 h4
    subst h1 h3 h4; exact h2
  | cons op ops ih =>
    intro k k1 k2 r r1 r2 xs ops' ys h1 h2
    simp only [Ring.execAll] at h1
    obtain ⟨⟨⟨ka, ra⟩, x⟩, e1, h1⟩ := bind_ok h1
    obtain ⟨⟨⟨kb, rb⟩, xs'⟩, e2, h1⟩ := bind_ok h1
    injection h1 with h1; injection h1 with h1 h3; injection h1 with h1 h4
    subst h1 h3 h4
    simp only [List.cons_append, Ring.execAll, e1, ih e2 h2, bind, Except.bind, pure, Except.pure]

theorem Uses.trans {t : Target} {k k1 k2 : Kernel} {r r1 r2 : Ring} {c c' : Nat}
    (h1 : Uses t k r c k1 r1) (h2 : Uses t k1 r1 c' k2 r2) : Uses t k r (c + c') k2 r2 := by
  obtain ⟨a, xs, e1, l1⟩ := h1
  obtain ⟨b, ys, e2, l2⟩ := h2
  exact ⟨a ++ b, xs ++ ys, execAll_append e1 e2, by rw [List.countP_append]; omega⟩

theorem Uses.mono {t : Target} {k k' : Kernel} {r r' : Ring} {c c' : Nat}
    (h : Uses t k r c k' r') (hc : c ≤ c') : Uses t k r c' k' r' := by
  obtain ⟨a, xs, e1, l1⟩ := h
  exact ⟨a, xs, e1, by omega⟩

theorem Uses.one {t : Target} {k k' : Kernel} {r r' : Ring} {op : RingOp} {x : Resp}
    (h : r.exec t k op = .ok ((k', r'), x)) : Uses t k r (if grows op then 1 else 0) k' r' :=
  ⟨[op], [x], by simp only [Ring.execAll, h, bind, Except.bind, pure, Except.pure], by
    simp only [List.countP_cons, List.countP_nil, Nat.zero_add, Nat.le_refl]⟩

variable {σ : Type} {t : Target} {k k' : Kernel}

theorem poke_uses {r : Ring} {bs : List Byte} (h : poke t k r bs = .ok k') : Uses t k r 0 k' r :=
  Uses.one (op := .poke bs) (x := .unit) (by
    simp only [Ring.exec, h, bind, Except.bind, pure, Except.pure])

theorem feed_uses {r r' : Ring} {n : Nat} (h : r.feed t n = .ok r') : Uses t k r 1 k r' :=
  Uses.one (op := .feed n) (x := .unit) (by
    simp only [Ring.exec, h, bind, Except.bind, pure, Except.pure])

theorem consume_uses {r r' : Ring} {n : Nat} (h : r.consume t n = .ok r') : Uses t k r 0 k r' :=
  Uses.one (op := .consume n) (x := .unit) (by
    simp only [Ring.exec, h, bind, Except.bind, pure, Except.pure])

theorem write_uses {r r' : Ring} {bs : List Byte} {n : Nat}
    (h : r.write t k bs = .ok (k', r', n)) : Uses t k r 1 k' r' :=
  Uses.one (op := .write bs) (x := .num n) (by
    simp only [Ring.exec, h, bind, Except.bind, pure, Except.pure])

theorem fillBuf_uses {R : Reader σ} {b b' : BufReader σ} {x : Out (List Byte)}
    (h : b.fillBuf R t k = .ok (k', b', x)) : Uses t k b.buf 1 k' b'.buf := by
  unfold BufReader.fillBuf at h
  obtain ⟨n, -, h⟩ := bind_ok h
  split at h
  · obtain ⟨old, -, h⟩ := bind_ok h
    split at h
    · obtain ⟨k1, e1, h⟩ := bind_ok h
      obtain ⟨r1, e2, h⟩ := bind_ok h
      obtain ⟨bs, -, h⟩ := bind_ok h
      injection h with h; injection h with h1 h2; injection h2 with h2 h3
      subst h1 h2
      exact ((poke_uses e1).trans (feed_uses e2)).mono (by omega)
    · obtain ⟨k1, e1, h⟩ := bind_ok h
      injection h with h; injection h with h1 h2; injection h2 with h2 h3
      subst h1 h2
      exact (poke_uses e1).mono (by omega)
    · obtain ⟨k1, e1, h⟩ := bind_ok h
      injection h with h; injection h with h1 h2; injection h2 with h2 h3
      subst h1 h2
      exact (poke_uses e1).mono (by omega)
  · obtain ⟨bs, -, h⟩ := bind_ok h
    injection h with h; injection h with h1 h2; injection h2 with h2 h3
    subst h1 h2
    exact (Uses.refl _ _ _).mono (by omega)

theorem rd_consume_uses {b b' : BufReader σ} {n : Nat} (h : b.consume t n = .ok b') :
    Uses t k b.buf 0 k b'.buf := by
  unfold BufReader.consume at h
  obtain ⟨r, e, h⟩ := bind_ok h
  injection h with h; subst h
  exact consume_uses e

theorem rd_read_uses {R : Reader σ} {b b' : BufReader σ} {dst d : List Byte} {x : Out Nat}
    (h : b.read R t k dst = .ok (k', b', d, x)) : Uses t k b.buf 1 k' b'.buf := by
  unfold BufReader.read at h
  obtain ⟨n, -, h⟩ := bind_ok h
  split at h
  · split at h <;>
    · injection h with h; injection h with h1 h2; injection h2 with h2 h3
      subst h1 h2
      exact (Uses.refl _ _ _).mono (by omega)
  · obtain ⟨⟨k1, b1, y⟩, e1, h⟩ := bind_ok h
    have u := fillBuf_uses e1
    dsimp only at h
    split at h
    · obtain ⟨b2, e2, h⟩ := bind_ok h
      injection h with h; injection h with h1 h2; injection h2 with h2 h3
      subst h1 h2
      exact u.trans (rd_consume_uses e2)
    all_goals
      injection h with h; injection h with h1 h2; injection h2 with h2 h3
      subst h1 h2
      exact u

theorem rd_exec_uses {R : Reader σ} {b b' : BufReader σ} {op : RdOp} {x : RdResp} {o : List Byte}
    (h : b.exec R t k op = .ok ((k', b'), x, o)) : Uses t k b.buf 1 k' b'.buf := by
  unfold BufReader.exec at h
  obtain ⟨q, -, h⟩ := bind_ok h
  cases op with
  | read dst =>
    obtain ⟨⟨k1, b1, d, y⟩, e, h⟩ := bind_ok h
    injection h with h; injection h with h1 h2; injection h1 with h1 h3
    subst h1 h3
    exact rd_read_uses e
  | fillBuf =>
    obtain ⟨⟨k1, b1, y⟩, e, h⟩ := bind_ok h
    injection h with h; injection h with h1 h2; injection h1 with h1 h3
    subst h1 h3
    exact fillBuf_uses e
  | consume n =>
    obtain ⟨b1, e, h⟩ := bind_ok h
    injection h with h; injection h with h1 h2; injection h1 with h1 h3
    subst h1 h3
    exact (rd_consume_uses e).mono (by omega)
  | setLowat n =>
    injection h with h; injection h with h1 h2; injection h1 with h1 h3
    subst h1 h3
    exact (Uses.refl _ _ _).mono (by omega)

theorem rd_execAll_uses {R : Reader σ} : ∀ {ops : List RdOp} {k k' : Kernel} {b b' : BufReader σ}
    {o : List Byte}, b.execAll R t k ops = .ok ((k', b'), o) →
    Uses t k b.buf ops.length k' b'.buf := by
  intro ops
  induction ops with
  | nil =>
    intro k k' b b' o h
    injection h with h; injection h with h1 h2; injection h1 with h1 h3
    subst h1 h3
    exact Uses.refl _ _ _
  | cons op ops ih =>
    intro k k' b b' o h
    simp only [BufReader.execAll] at h
    obtain ⟨⟨⟨k1, b1⟩, x, h1⟩, e1, h⟩ := bind_ok h
    obtain ⟨⟨⟨k2, b2⟩, hs⟩, e2, h⟩ := bind_ok h
    injection h with h; injection h with h1 h2; injection h1 with h1 h3
    subst h1 h3
    exact ((rd_exec_uses e1).trans (ih e2)).mono (by simp only [List.length_cons]; omega)

theorem flushBuf_uses {W : Writer σ} : ∀ {fuel : Nat} {b b' : BufWriter σ} {x : Out Unit},
    BufWriter.flushBuf W t k fuel b = .ok (b', x) → Uses t k b.buf 0 k b'.buf := by
  intro fuel
  induction fuel with
  | zero =>
    intro b b' x h
    injection h with h; injection h with h1 h2; subst h1; exact Uses.refl _ _ _
  | succ fuel ih =>
    intro b b' x h
    simp only [BufWriter.flushBuf] at h
    obtain ⟨e, -, h⟩ := bind_ok h
    split at h
    · injection h with h; injection h with h1 h2; subst h1; exact Uses.refl _ _ _
    · obtain ⟨data, -, h⟩ := bind_ok h
      split at h
      · injection h with h; injection h with h1 h2; subst h1; exact Uses.refl _ _ _
      · injection h with h; injection h with h1 h2; subst h1; exact Uses.refl _ _ _
      · obtain ⟨r, e, h⟩ := bind_ok h
        exact (consume_uses e).trans (ih h)
      · split at h
        · have := ih h
          exact this
        · injection h with h; injection h with h1 h2; subst h1; exact Uses.refl _ _ _

/-- A flush that unwinds leaves `panicked` set. -/
theorem flushBuf_unwound {W : Writer σ} : ∀ {fuel : Nat} {b b' : BufWriter σ},
    BufWriter.flushBuf W t k fuel b = .ok (b', .unwound) → b'.panicked = true := by
  intro fuel
  induction fuel with
  | zero =>
    intro b b' h
    injection h with h; injection h with h1 h2; cases h2
  | succ fuel ih =>
    intro b b' h
    simp only [BufWriter.flushBuf] at h
    obtain ⟨e, -, h⟩ := bind_ok h
    split at h
    · injection h with h; injection h with h1 h2; cases h2
    · obtain ⟨data, -, h⟩ := bind_ok h
      split at h
      · injection h with h; injection h with h1 h2; subst h1; rfl
      · injection h with h; injection h with h1 h2; cases h2
      · obtain ⟨r, e, h⟩ := bind_ok h
        exact ih h
      · split at h
        · exact ih h
        · injection h with h; injection h with h1 h2; cases h2

theorem writeRest_uses {W : Writer σ} {b b' : BufWriter σ} {data : List Byte} {x : Out Nat}
    (h : b.writeRest W t k data = .ok (k', b', x)) : Uses t k b.buf 1 k' b'.buf := by
  unfold BufWriter.writeRest at h
  obtain ⟨w, -, h⟩ := bind_ok h
  split at h
  · split at h <;>
    · injection h with h; injection h with h1 h2; injection h2 with h2 h3
      subst h1 h2
      exact (Uses.refl _ _ _).mono (by omega)
  · obtain ⟨⟨k1, r1, n⟩, e, h⟩ := bind_ok h
    injection h with h; injection h with h1 h2; injection h2 with h2 h3
    subst h1 h2
    exact write_uses e

theorem wr_write_uses {W : Writer σ} {fuel : Nat} {b b' : BufWriter σ} {data : List Byte}
    {x : Out Nat} (h : b.write W t fuel k data = .ok (k', b', x)) :
    Uses t k b.buf 1 k' b'.buf := by
  unfold BufWriter.write at h
  obtain ⟨w, -, h⟩ := bind_ok h
  split at h
  · obtain ⟨⟨b1, y⟩, e, h⟩ := bind_ok h
    have u := flushBuf_uses e
    dsimp only at h
    split at h
    · exact (u.trans (writeRest_uses h)).mono (by omega)
    all_goals
      injection h with h; injection h with h1 h2; injection h2 with h2 h3
      subst h1 h2
      exact u.mono (by omega)
  · exact writeRest_uses h

theorem wr_flush_uses {W : Writer σ} {fuel : Nat} {b b' : BufWriter σ} {x : Out Unit}
    (h : b.flush W t fuel k = .ok (b', x)) : Uses t k b.buf 0 k b'.buf := by
  unfold BufWriter.flush at h
  obtain ⟨⟨b1, y⟩, e, h⟩ := bind_ok h
  have u := flushBuf_uses e
  dsimp only at h
  split at h
  · split at h <;>
    · injection h with h; injection h with h1 h2
      subst h1
      exact u
  · injection h with h; injection h with h1 h2
    subst h1
    exact u

theorem wr_exec_uses {W : Writer σ} {fuel : Nat} {b b' : BufWriter σ} {op : WrOp} {x : Out Nat}
    (h : b.exec W t fuel k op = .ok ((k', b'), x)) : Uses t k b.buf 1 k' b'.buf := by
  cases op with
  | write data =>
    simp only [BufWriter.exec] at h
    obtain ⟨⟨k1, b1, y⟩, e, h⟩ := bind_ok h
    injection h with h; injection h with h1 h2; injection h1 with h1 h3
    subst h1 h3
    exact wr_write_uses e
  | flush =>
    simp only [BufWriter.exec] at h
    obtain ⟨⟨b1, y⟩, e, h⟩ := bind_ok h
    injection h with h; injection h with h1 h2; injection h1 with h1 h3
    subst h1 h3
    exact (wr_flush_uses e).mono (by omega)

theorem wr_execAll_uses {W : Writer σ} {fuel : Nat} : ∀ {ops : List WrOp} {k k' : Kernel}
    {b b' : BufWriter σ} {o : List Byte}, b.execAll W t fuel k ops = .ok ((k', b'), o) →
    Uses t k b.buf ops.length k' b'.buf := by
  intro ops
  induction ops with
  | nil =>
    intro k k' b b' o h
    injection h with h; injection h with h1 h2; injection h1 with h1 h3
    subst h1 h3
    exact Uses.refl _ _ _
  | cons op ops ih =>
    intro k k' b b' o h
    simp only [BufWriter.execAll] at h
    obtain ⟨⟨⟨k1, b1⟩, x⟩, e1, h⟩ := bind_ok h
    split at h
    · injection h with h; injection h with h1 h2; injection h1 with h1 h3
      subst h1 h3
      exact (wr_exec_uses e1).mono (by simp only [List.length_cons]; omega)
    · obtain ⟨⟨⟨k2, b2⟩, hs⟩, e2, h⟩ := bind_ok h
      injection h with h; injection h with h1 h2; injection h1 with h1 h3
      subst h1 h3
      exact ((wr_exec_uses e1).trans (ih e2)).mono (by simp only [List.length_cons]; omega)

/-! ### In a program -/

/-- Only objects shown by the pages of `[ptr, ptr+2*len)` have changed contents. -/
structure Confined (k k' : Kernel) (ptr len : Nat) : Prop where
  same : SameButData k k'
  data : ∀ o, (∀ p e, k.pt p = some e → ptr ≤ p * k.page → p * k.page < ptr + 2 * len →
    e.obj ≠ o) → k'.data o = k.data o

theorem Confined.refl (k : Kernel) (ptr len : Nat) : Confined k k ptr len :=
  ⟨SameButData.refl k, fun _ _ => rfl⟩

theorem Confined.trans {a b c : Kernel} {ptr len : Nat} (h1 : Confined a b ptr len)
    (h2 : Confined b c ptr len) : Confined a c ptr len := by
  refine ⟨h1.same.trans h2.same, fun o h => ?_⟩
  rw [h2.data o (by rw [h1.same.pt, h1.same.page]; exact h), h1.data o h]

theorem upd_upd (w : World) (k1 k2 : Kernel) (j : Nat) (h1 h2 : Option Handle) :
    (w.upd k1 j h1).upd k2 j h2 = w.upd k2 j h2 := by
  have : (fun i => if i = j then h2 else if i = j then h1 else w.held i) =
      (fun i => if i = j then h2 else w.held i) := by
    funext i; split <;> simp_all
  simp only [World.upd, this]

theorem execAll_world {tab : SysTable} {k0 : Kernel} (wf : Wf t k0) {j : Nat} :
    ∀ {ops : List RingOp} {w : World} {r r' : Ring} {n : Nat} {k' : Kernel} {xs : List Resp},
    Reach tab t k0 w → w.held j = some (.ring r n) →
    n + ops.countP grows * r.len < posBound t r.len →
    r.execAll t w.k ops = .ok ((k', r'), xs) →
    ∃ n', Reach tab t k0 (w.upd k' j (some (.ring r' n'))) ∧
      n' ≤ n + ops.countP grows * r.len ∧ r'.ptr = r.ptr ∧ r'.len = r.len ∧
      Confined w.k k' r.ptr r.len := by
  intro ops
  induction ops with
  | nil =>
    intro w r r' n k' xs h hj hb run
    injection run with run; injection run with h1 h2; injection h1 with h1 h3
    subst h1 h3
    refine ⟨n, ?_, Nat.le_add_right _ _, rfl, rfl, Confined.refl _ _ _⟩
    rw [World.Inv.upd_self hj]; exact h
  | cons op ops ih =>
    intro w r r' n k' xs h hj hb run
    simp only [Ring.execAll] at run
    obtain ⟨⟨⟨k1, r1⟩, x⟩, e1, run⟩ := bind_ok run
    obtain ⟨⟨⟨k2, r2⟩, ys⟩, e2, run⟩ := bind_ok run
    injection run with run; injection run with h1 h2; injection h1 with h1 h3
    subst h1 h3
    have v := h.inv wf
    obtain ⟨at_, cl⟩ := v.live j _ hj
    obtain ⟨o, s, a1, a2, a3, a4⟩ := at_.inv
    have hw := a1.writeLen_eq
    have hlen := a1.len_eq
    rw [List.countP_cons] at hb ⊢
    have hp : passed op n s.spare.length ≤ n + (if grows op then 1 else 0) * r.len := by
      cases op <;> simp only [passed, grows, if_true, if_false, Bool.false_eq_true] <;> omega
    have hsum : (ops.countP grows + if grows op = true then 1 else 0) * r.len =
        ops.countP grows * r.len + (if grows op = true then 1 else 0) * r.len := Nat.add_mul _ _ _
    have ht : (s.step op).1.total = passed op n s.spare.length := by
      cases op <;> simp [Win.step, passed, a2]
    obtain ⟨k1', r1', e1', -, p1, p2, sd, d⟩ := ring_step a1 op (by rw [ht]; omega)
    rw [e1] at e1'
    injection e1' with e1'; injection e1' with e1' e1''; injection e1' with f1 f2
    subst f1 f2
    have st : w.step tab t (.ringOp j op) =
        .ok (w.upd k1 j (some (.ring r1 (passed op n s.spare.length)))) := by
      simp only [World.step, hj, hw, e1, bind, Except.bind, pure, Except.pure]
    have r1r : Reach tab t k0 (w.upd k1 j (some (.ring r1 (passed op n s.spare.length)))) := by
      refine .step (op := .ringOp j op) h ?_ st
      intro r2 n2 l hr hl
      rw [hj] at hr; injection hr with hr; injection hr with g1 g2
      subst g1 g2
      rw [hw] at hl; injection hl with hl; subst hl
      omega
    have hj1 : (w.upd k1 j (some (.ring r1 (passed op n s.spare.length)))).held j =
        some (.ring r1 (passed op n s.spare.length)) := by simp only [World.upd, if_true]
    obtain ⟨n', g1, g2, g3, g4, g5⟩ := ih r1r hj1
      (by rw [p2]; omega) e2
    rw [upd_upd] at g1
    rw [p2] at g2 g4 g5
    rw [p1] at g3 g5
    refine ⟨n', g1, by omega, g3, g4, Confined.trans ⟨sd, ?_⟩ g5⟩
    intro o' ho
    refine d o' ?_
    intro he
    have h0 := a1.mirror.len_pos
    have hin := page_inside (a := r.ptr + 0) (len := r.len) a1.mirror.ptr_dvd v.wf.page_pos
      (by omega) (by omega)
    obtain ⟨e, c1, c2, -⟩ := a1.mirror.entry v.wf hin.1 hin.2
    exact ho _ e c1 hin.1 hin.2 (c2.trans he.symm)

/-- What a program sees of a call confined to ring `j`. -/
theorem Confined.only {k0 : Kernel} {w : World} (v : w.Inv t k0) {j : Nat} {r : Ring} {n : Nat}
    (hj : w.held j = some (.ring r n)) {k' : Kernel} (c : Confined w.k k' r.ptr r.len) :
    OnlyHandle w k' j := by
  have sd := c.same
  obtain ⟨at_, cl⟩ := v.live j _ hj
  obtain ⟨o, s, a1, a2, a3, a4⟩ := at_.inv
  refine ⟨sd.pt, sd.fds, sd.names, sd.size, sd.disk, ?_, ?_, ?_⟩
  · intro d f hd
    exact c.data f.obj (fun p e he h1 h2 => ((cl p e h1 h2 he).1 d f hd).symm)
  · intro s o hs
    refine c.data o (fun p e he h1 h2 ho => (cl p e h1 h2 he).2 s ?_)
    rw [ho]; exact hs
  · intro i x hij hx a h1 h2
    have hon : x.OnPage k0.page (a / w.k.page) := by
      rw [← v.page]
      have h3 := Nat.div_mul_le_self a w.k.page
      have h4 := Nat.lt_div_mul_add v.wf.page_pos (a := a)
      refine ⟨by omega, ?_⟩
      rw [Nat.succ_mul]; omega
    have hoff := v.sep i j x _ hij hx hj (a / w.k.page) hon
    rw [← v.page] at hoff
    have hoff : ¬ (r.ptr ≤ a / w.k.page * w.k.page ∧ a / w.k.page * w.k.page < r.ptr + 2 * r.len) :=
      fun hh => hoff ((onPage_ring v.wf.page_pos a1.mirror.ptr_dvd _).mpr hh)
    unfold Kernel.load
    rw [sd.page, sd.pt]
    cases he : w.k.pt (a / w.k.page) with
    | none => rfl
    | some e =>
      have own := a3 _ e he
      have keep : ∀ o', (e.obj = o' ∨ e.copy = some o') → k'.data o' = w.k.data o' := by
        intro o' ho
        refine c.data o' (fun p e' he' b1 b2 hh => ?_)
        obtain ⟨e1, c1, c2, -⟩ := a1.mirror.entry v.wf b1 b2
        rw [he'] at c1; injection c1 with c1; subst c1
        rw [c2] at hh; subst hh
        exact hoff (own ho)
      have hb : k'.backed e = w.k.backed e := by
        simp only [backed, sd.page, sd.size]
      have hc : k'.data (k'.cell e (a % w.k.page)).1 (k'.cell e (a % w.k.page)).2 =
          w.k.data (w.k.cell e (a % w.k.page)).1 (w.k.cell e (a % w.k.page)).2 := by
        simp only [cell, sd.page]
        cases hcp : e.copy with
        | none => simp only []; rw [keep e.obj (.inl rfl)]
        | some c => simp only []; rw [keep c (.inr hcp)]
      simp only [hb, hc]

theorem Uses.world {tab : SysTable} {k0 : Kernel} (wf : Wf t k0) {j : Nat} {w : World}
    {r r' : Ring} {n c : Nat} {k' : Kernel} (h : Reach tab t k0 w)
    (hj : w.held j = some (.ring r n)) (below : n + c * r.len < posBound t r.len)
    (u : Uses t w.k r c k' r') :
    ∃ n', Reach tab t k0 (w.upd k' j (some (.ring r' n'))) ∧ n' ≤ n + c * r.len ∧
      r'.len = r.len ∧ OnlyHandle w k' j := by
  obtain ⟨ops, xs, e, hc⟩ := u
  have hm := Nat.mul_le_mul_right r.len hc
  obtain ⟨n', h1, h2, h3, h4, h5⟩ := execAll_world wf h hj (by omega) e
  exact ⟨n', h1, by omega, h4, h5.only (h.inv wf) hj⟩

end Vmap

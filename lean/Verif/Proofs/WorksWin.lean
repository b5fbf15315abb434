import Verif.Proofs.Windows
import Verif.Proofs.Map
import Verif.Model.WindowsMap
import Verif.Spec.Works
/- Helper lemmas for C133: calls to a willing Windows. -/
namespace Vmap
open Spec Win

/-- What the calls before the mapping leave alone. -/
structure WinAsked (s s1 : Vmap.Win) : Prop where
  page : s1.page = s.page
  gran : s1.gran = s.gran
  views : s1.views = s.views
  reserved : s1.reserved = s.reserved
  oracle : s1.oracle = s.oracle

theorem WinAsked.refl (s : Vmap.Win) : WinAsked s s := ⟨rfl, rfl, rfl, rfl, rfl⟩

theorem WinAsked.trans {a b c : Vmap.Win} (h : WinAsked a b) (g : WinAsked b c) : WinAsked a c :=
  ⟨g.page.trans h.page, g.gran.trans h.gran, g.views.trans h.views, g.reserved.trans h.reserved,
    g.oracle.trans h.oracle⟩

theorem WinAsked.willing {t : Target} {s s1 : Vmap.Win} {addr len : Nat} (g : WinAsked s s1)
    (h : WinWilling t s addr len) : WinWilling t s1 addr len := by
  constructor
  · rw [g.oracle]; exact h.ok
  · rw [g.oracle]; exact h.place
  · rw [g.gran]; exact h.granule
  · rw [g.page]; exact h.top
  · exact h.bottom
  · rw [g.page, g.views]; exact h.views
  · rw [g.page, g.reserved]; exact h.reserved

theorem Spec.WinWilling.less {t : Target} {s : Vmap.Win} {addr len n : Nat}
    (h : WinWilling t s addr len) (hn : n ≤ len) : WinWilling t s addr n := by
  have hr : (n + s.page - 1) / s.page * s.page ≤ (len + s.page - 1) / s.page * s.page :=
    Nat.mul_le_mul_right _ (Nat.div_le_div_right (by omega))
  refine ⟨h.ok, h.place, h.granule, ?_, h.bottom, ?_, ?_⟩
  · have := h.top; omega
  · intro v hv; have := h.views v hv; omega
  · intro v hv; have := h.reserved v hv; omega

theorem winFree_willing {t : Target} {s : Vmap.Win} {addr len : Nat} (h : WinWilling t s addr len) :
    s.free addr len = true := by
  rw [Win.free, Bool.and_eq_true, List.all_eq_true, List.all_eq_true]
  exact ⟨fun v hv => decide_eq_true (h.views v hv), fun r hr => decide_eq_true (h.reserved r hr)⟩

theorem handleNew_willing {t : Target} {s : Vmap.Win} {addr n : Nat} (h : WinWilling t s addr n)
    (op : Operation) (file : Option Nat) (prot : WinProt) {len : Nat} (hl : len < t.lim)
    (hsz : s.sectionSize file len ≠ 0) :
    ∃ s1, s.handleNew t op file prot len = .ok (s1, .ok s.next) ∧ WinAsked s s1 ∧
      s1.handles s.next = some ⟨s.next, file, prot, s.sectionSize file len⟩ := by
  have hok : s.choice.ok = true := h.ok s.tick
  simp only [Win.handleNew, hi32_eq hl, lo32_eq, bind, Except.bind, createFileMapping, halves]
  rw [if_pos ⟨hok, hsz⟩]
  exact ⟨_, rfl, ⟨rfl, rfl, rfl, rfl, rfl⟩, if_pos rfl⟩

theorem view_willing {t : Target} {s : Vmap.Win} {addr len : Nat} (h : WinWilling t s addr len)
    {hd : Nat} {sec : Section} (hs : s.handles hd = some sec) (op : Operation) (access : WinAccess)
    {off : Nat} (ho : off < t.lim) (hg : off % s.gran = 0) (h0 : 0 < len) (hfit : off + len ≤ sec.size)
    (hp : permits sec.prot access = true) :
    ∃ s1, s.view t hd op access off len 0 = .ok (s1, .ok addr) := by
  have hok : s.choice.ok = true := h.ok s.tick
  have had : s.choice.addr = addr := h.place s.tick
  simp only [Win.view, hi32_eq ho, lo32_eq, bind, Except.bind, mapViewOfFileEx, halves, hs, had,
    if_neg (show ¬ len = 0 by omega), if_true]
  rw [if_pos ⟨hok, hg, by omega, hfit, h.bottom, Nat.mod_eq_zero_of_dvd h.granule, h.top,
    winFree_willing h, hp⟩]
  exact ⟨_, rfl⟩

theorem mapFile_win_willing {t : Target} {s : Vmap.Win} {addr len : Nat} (h : WinWilling t s addr len)
    {file flen off : Nat} (prot : Protect) (hf : s.files file = some flen) (h0 : 0 < len)
    (ho : off < t.lim) (hg : off % s.gran = 0) (hfit : off + len ≤ flen) :
    ∃ s1, s.mapFile t file off len prot = .ok (s1, .ok addr) := by
  have hsz : s.sectionSize (some file) 0 = flen := by simp [sectionSize, hf]
  obtain ⟨s1, e1, k1, g1⟩ := handleNew_willing h .mapFileHandle (some file) (mapFileBits prot).1
    (len := 0) t.lim_pos (by omega)
  obtain ⟨s2, e2⟩ := view_willing (k1.willing h) g1 .mapFileView (mapFileBits prot).2 ho
    (by rw [k1.gran]; exact hg) h0 (by simp only [hsz]; exact hfit) (by cases prot <;> rfl)
  refine ⟨s2.dropHandle s.next, ?_⟩
  simp only [Win.mapFile, bind, Except.bind, e1, e2]
  rfl

theorem mapAnon_win_willing {t : Target} {s : Vmap.Win} {addr len : Nat} (h : WinWilling t s addr len)
    (prot : Protect) (h0 : 0 < len) (hl : len < t.lim) :
    ∃ s1, s.mapAnon t len prot = .ok (s1, .ok addr) := by
  obtain ⟨s1, e1, k1, g1⟩ := handleNew_willing h .mapAnonymousHandle none (mapAnonBits prot).1
    (len := len) hl (by simp only [sectionSize]; omega)
  obtain ⟨s2, e2⟩ := view_willing (k1.willing h) g1 .mapAnonymousView (mapAnonBits prot).2 (off := 0)
    t.lim_pos (Nat.zero_mod _) h0 (by simp only [sectionSize]; omega) (by cases prot <;> rfl)
  refine ⟨s2.dropHandle s.next, ?_⟩
  simp only [Win.mapAnon, bind, Except.bind, e1, e2]
  rfl

theorem resizeFile_win_willing (tab : SysTable) {t : Target} {s : Vmap.Win} {addr n : Nat}
    (h : WinWilling t s addr n) {file flen sz : Nat} (hf : s.files file = some flen)
    (hv : ∀ v, v ∈ s.views → v.sec.file ≠ some file) (hl : sz < 2 ^ 63) :
    ∃ s1, s.resizeFile tab file sz = (s1, .ok sz) ∧ WinAsked s s1 ∧ s1.files file = some sz := by
  have h63 : lim64 / 2 = 2 ^ 63 := by decide
  have h64 : asU64 sz = sz := by
    unfold asU64; exact Nat.mod_eq_of_lt (by unfold lim64; omega)
  have hok : s.choice.ok = true := h.ok s.tick
  simp only [Win.resizeFile, Win.setLen, h64]
  rw [if_pos ⟨hok, by rw [hf]; simp, by omega, by
    rw [List.all_eq_true]
    exact fun v hv' => decide_eq_true (fun hx => absurd hx (hv v hv'))⟩]
  exact ⟨_, rfl, ⟨rfl, rfl, rfl, rfl, rfl⟩, if_pos rfl⟩

theorem mapIf_win_prep_willing (tab : SysTable) {t : Target} {s : Vmap.Win} {addr n : Nat} {o : Options}
    {file flen : Nat} (h : WinWilling t s addr n) (hf : s.files file = some flen) (hs : flen < t.lim)
    (hm : WinMappable s o file flen) :
    ∃ s1, s.mapIf tab t o file = s1.mapStep t o file (newLen o.truncate o.resize flen) ∧
      WinAsked s s1 ∧ s1.files file = some (newLen o.truncate o.resize flen) := by
  have hmod : asUsize t flen = flen := Nat.mod_eq_of_lt hs
  have hok : s.choice.ok = true := h.ok s.tick
  have e1 : s.fileLen tab file = (s.did (.getFileInfo file), .ok flen) := by
    simp only [Win.fileLen, hf, hok, if_true, Win.ioErr]
  have k1 : WinAsked s (s.did (.getFileInfo file)) := ⟨rfl, rfl, rfl, rfl, rfl⟩
  have f1 : (s.did (.getFileInfo file)).files file = some flen := hf
  generalize s.did (.getFileInfo file) = s1 at e1 k1 f1
  obtain ⟨s2, e2, k2, f2⟩ : ∃ s2, s1.truncateStep tab o file flen =
      (s2, .ok (if o.truncate then 0 else flen)) ∧ WinAsked s s2 ∧
      s2.files file = some (if o.truncate then 0 else flen) := by
    unfold Win.truncateStep
    cases ht : o.truncate with
    | false => exact ⟨s1, by simp, k1, f1⟩
    | true =>
      by_cases h0 : flen > 0
      · rw [if_pos (by simp [h0])]
        obtain ⟨s2, g1, g2, g3⟩ := resizeFile_win_willing tab (k1.willing h) f1
          (by rw [k1.views]; exact hm.views (.inl ht)) (sz := 0) (by omega)
        exact ⟨s2, g1, k1.trans g2, g3⟩
      · rw [if_neg (by simp [h0])]
        have : flen = 0 := by omega
        exact ⟨s1, by simp [this], k1, by rw [f1, this]; rfl⟩
  obtain ⟨s3, e3, k3, f3⟩ : ∃ s3, s2.resizeStep tab o file (if o.truncate then 0 else flen) =
      (s3, .ok (newLen o.truncate o.resize flen)) ∧ WinAsked s s3 ∧
      s3.files file = some (newLen o.truncate o.resize flen) := by
    have hlen := hm.length
    have hch := hm.views
    unfold Win.resizeStep newLen
    generalize (if o.truncate then 0 else flen) = base at f2
    have go : ∀ sz, o.resize ≠ .endOf → sz < 2 ^ 63 → ∃ s3, s2.resizeFile tab file sz = (s3, .ok sz) ∧
        WinAsked s s3 ∧ s3.files file = some sz := by
      intro sz hne hsz
      obtain ⟨s3, g1, g2, g3⟩ := resizeFile_win_willing tab (k2.willing h) f2
        (by rw [k2.views]; exact hch (.inr hne)) hsz
      exact ⟨s3, g1, k2.trans g2, g3⟩
    cases hr : o.resize with
    | endOf => exact ⟨s2, rfl, k2, f2⟩
    | exact sz => rw [hr] at hlen; exact go sz (by rw [hr]; exact fun h => by cases h) hlen
    | min sz =>
      rw [hr] at hlen
      simp only
      by_cases hc : sz > base
      · rw [if_pos hc, show Nat.max sz base = sz from Nat.max_eq_left (by omega)]
        exact go sz (by rw [hr]; exact fun h => by cases h) hlen
      · rw [if_neg hc, show Nat.max sz base = base from Nat.max_eq_right (by omega)]
        exact ⟨s2, rfl, k2, f2⟩
    | max sz =>
      rw [hr] at hlen
      simp only
      by_cases hc : sz < base
      · rw [if_pos hc, show Nat.min sz base = sz from Nat.min_eq_left (by omega)]
        exact go sz (by rw [hr]; exact fun h => by cases h) hlen
      · rw [if_neg hc, show Nat.min sz base = base from Nat.min_eq_right (by omega)]
        exact ⟨s2, rfl, k2, f2⟩
  refine ⟨s3, ?_, k3, f3⟩
  simp only [Win.mapIf, e1, hmod, e2, e3]

theorem mapStep_win_willing {t : Target} {s : Vmap.Win}
    (sizes : ∃ a b, s.page = 2 ^ a ∧ s.gran = 2 ^ b ∧ a ≤ b ∧ b + 1 < t.width.bits) {addr n : Nat} {o : Options}
    {file flen : Nat} (h : WinWilling t s addr n) (hfit : Fits t o)
    (hf : s.files file = some flen) (hr : InRange flen o.offset o.len)
    (hpos : 0 < wanted flen o.offset o.len + o.offset % s.gran)
    (hn : wanted flen o.offset o.len + o.offset % s.gran ≤ n) :
    ∃ s', s.mapStep t o file flen =
      .ok (s', .ok (some ⟨addr + o.offset % s.gran, wanted flen o.offset o.len⟩)) := by
  obtain ⟨a, b, hpa, hgb, hab, hbits⟩ := sizes
  have hgp : 0 < s.gran := hgb ▸ Nat.two_pow_pos b
  have hpp : 0 < s.page := hpa ▸ Nat.two_pow_pos a
  obtain ⟨h1, h2⟩ := mapLen_some hr
  have h3 := wanted_le hr
  have hd := Nat.div_add_mod o.offset s.gran
  have hm := Nat.mod_lt o.offset hgp
  have hoff := hfit.offset
  rw [Nat.mul_comm] at hd
  have hsz : s.sizeAlloc = Size.withSize (2 ^ b) := by rw [sizeAlloc, systemInfo, ← hgb]
  have htr : s.sizeAlloc.truncate t o.offset = .ok (o.offset / s.gran * s.gran) := by
    rw [hsz, hgb]; exact truncate_eq (by omega) hfit.offset
  have w' := h.less hn
  obtain ⟨s1, e1⟩ := mapFile_win_willing w' o.protect hf hpos (off := o.offset / s.gran * s.gran)
    (by omega) (Nat.mul_mod_left _ _) (by omega)
  have htop := w'.top
  have := (isRoundUp_div (len := wanted flen o.offset o.len + o.offset % s.gran) hpp).2.1
  refine ⟨s1, ?_⟩
  simp only [Win.mapStep]
  rw [if_neg (by omega), subU_ok h1]
  simp only [bind, Except.bind, h2, htr]
  rw [subU_ok (by omega)]
  simp only
  rw [show o.offset - o.offset / s.gran * s.gran = o.offset % s.gran by omega, addU_ok (by omega)]
  simp only [e1, MapMut.fromPtr, ptrAdd_ok (show addr + o.offset % s.gran < t.lim by omega)]
  rfl

theorem alloc_win_willing {t : Target} {s : Vmap.Win} (w : WinWf t s) {addr n : Nat} {o : Options}
    (h : WinWilling t s addr n) (hf : WinAllocFits t s.gran (o.offset % s.page) o.len)
    (hn : ∀ len, AllocLen s.gran (o.offset % s.page) o.len len →
      0 < o.offset % s.page + len ∧ o.offset % s.page + len ≤ n) :
    ∃ s' len, s.alloc t o = .ok (s', .ok ⟨addr + o.offset % s.page, len⟩) ∧
      AllocLen s.gran (o.offset % s.page) o.len len := by
  obtain ⟨a, b, hpa, hgb, hab, hbits⟩ := w.sizes
  have hpp := w.page_pos
  have hgp := w.gran_pos
  have hd := Nat.mod_lt o.offset hpp
  have hpg : s.page ≤ s.gran := Nat.le_of_dvd hgp w.page_dvd
  have hlim : 4 * s.gran ≤ t.lim := by
    rw [hgb]
    have : 2 ^ b * 2 ^ 2 = 2 ^ (b + 2) := (Nat.pow_add 2 b 2).symm
    have h2 : 2 ^ (b + 2) ≤ t.lim := Nat.pow_le_pow_right (by decide) (by omega)
    omega
  have hsp : s.sizePage = Size.withSize (2 ^ a) := by rw [sizePage, systemInfo, ← hpa]
  have hsz : s.sizeAlloc = Size.withSize (2 ^ b) := by rw [sizeAlloc, systemInfo, ← hgb]
  have hoff : s.sizePage.offset t o.offset = .ok (o.offset % s.page) := by rw [hsp, hpa]; exact offset_eq
  have hround : ∀ x, x + s.gran < t.lim → s.sizeAlloc.round t x = .ok ((x + s.gran - 1) / s.gran * s.gran) := by
    intro x hx
    rw [hsz, hgb]
    rw [hgb] at hx
    exact round_eq (by omega) hx
  generalize hD : o.offset % s.page = d at hf hoff hd hn ⊢
  have hlen : ∃ len, s.allocLen t o.len d = .ok len ∧ AllocLen s.gran d o.len len ∧ d + len < t.lim := by
    cases hl : o.len with
    | endOf =>
      have hr : (d + 1 + s.gran - 1) / s.gran * s.gran = s.gran :=
        IsRoundUp.unique (isRoundUp_div hgp) ⟨Nat.dvd_refl _, by omega, fun m hm h => Nat.le_of_dvd (by omega) hm⟩
      simp only [allocLen, bind, Except.bind, addU_ok (show d + 1 < t.lim by omega), hround _ (show d + 1 + s.gran < t.lim by omega),
        hr, subU_ok (show d ≤ s.gran by omega)]
      exact ⟨_, rfl, ⟨by omega, by omega⟩, by omega⟩
    | exact l => rw [hl] at hf; exact ⟨l, rfl, rfl, hf⟩
    | max l => rw [hl] at hf; exact ⟨l, rfl, rfl, hf⟩
    | min l =>
      rw [hl] at hf
      simp only [WinAllocFits] at hf
      obtain ⟨g1, g2, g3⟩ := isRoundUp_div (u := s.gran) (len := d + l) hgp
      have g4 : (d + l + s.gran - 1) / s.gran * s.gran ≤ d + l + s.gran - 1 := Nat.div_mul_le_self _ _
      simp only [allocLen, bind, Except.bind, addU_ok (show d + l < t.lim by omega), hround _ hf]
      generalize (d + l + s.gran - 1) / s.gran * s.gran = R at g1 g2 g3 g4
      simp only [subU_ok (show d ≤ R by omega)]
      exact ⟨_, rfl, ⟨by omega, by rw [show d + (R - d) = R by omega]; exact g1, by omega⟩, by omega⟩
  obtain ⟨len, hl1, hl2, hl3⟩ := hlen
  obtain ⟨n1, n2⟩ := hn len hl2
  have w' := h.less n2
  obtain ⟨s1, e1⟩ := mapAnon_win_willing w' o.protect n1 hl3
  have htop := w'.top
  have := (isRoundUp_div (len := d + len) hpp).2.1
  refine ⟨s1, len, ?_, hl2⟩
  simp only [Win.alloc, bind, Except.bind, hoff, hl1, addU_ok hl3, e1, MapMut.fromPtr,
    ptrAdd_ok (show addr + d < t.lim by omega)]
  rfl

end Vmap

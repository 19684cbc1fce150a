import Verif.Lemmas.XFoil
import Mathlib.Tactic.FieldSimp
import Mathlib.Tactic.Linarith
import Mathlib.Tactic.Ring

/-! C41, C42, C43: what a successful read of a dump file gives. -/

set_option linter.unusedSectionVars false

namespace IBL.XFoil
open Spec

section generic
variable {α : Type} [Add α] [Sub α] [Mul α] [Div α] [Neg α] [PyLit α] [PyCmp α] [PySpecial α]

/-- Equal in everything except the arc length. -/
def Pt.SameButS (p q : Pt α) : Prop := p = { q with s := p.s }
@[inherit_doc Pt.SameButS]
def Wake.SameButS (p q : Wake α) : Prop := p = { q with s := p.s }

theorem sameButS_map {f : α → α} (l : List (Pt α)) : List.Forall₂ Pt.SameButS (l.map (Pt.at f)) l := by
  induction l with
  | nil => exact .nil
  | cons p l ih => exact .cons rfl ih

theorem wake_sameButS_map {f : α → α} (l : List (Wake α)) : List.Forall₂ Wake.SameButS (l.map (Wake.at f)) l := by
  induction l with
  | nil => exact .nil
  | cons p l ih => exact .cons rfl ih

/-- C41: the rows `ps` of the airfoil are distributed over the two surfaces, each row once: those up to some place, backwards, on the upper surface,
and the others, with velocity and the two defects mirrored, on the lower surface. On both surfaces the stagnation point `stag` comes first: a new point,
or the last row of the upper part if that row has zero velocity. -/
structure Distributed (ps : List (Pt α)) (upper lower : List (Pt α)) (us ls : List (Pt α)) (stag : Pt α) : Prop where
  rows : ps = us ++ ls
  upper : List.Forall₂ Pt.SameButS upper (stag :: us.reverse) ∨ (PyCmp.eq stag.u (lit 0) = true ∧ List.Forall₂ Pt.SameButS upper us.reverse ∧
    us.getLast? = some stag)
  lower : List.Forall₂ Pt.SameButS lower (stag :: ls.map Pt.flip)
  /-- the surfaces meet where the velocity changes its sign, if it does -/
  sign : (∃ p ∈ ps, PyCmp.lt p.u (lit 0) = true) → (∀ p ∈ us, PyCmp.lt p.u (lit 0) = false) ∧ ∀ p, ls.head? = some p → PyCmp.lt p.u (lit 0) = true

/-- C41. `hcancel` holds for finite IEEE numbers. -/
theorem rows_kept (fl : Floats α) (fs : Files) (name : Text) (hn : name ≠ []) (r : Reader α) (h : Reader.load fl fs name = (r, .ok ()))
    (hcancel : ∀ w v, fl w = some v → PyCmp.eq (v + v * lit (-1)) (lit 0) = true) (hinf : InfAdm α) :
    ∃ content air wk ps ws us ls stag, fs name = .ok content ∧ Sections (readlines content) air wk ∧ Rows fl air ps ∧ WakeRows fl wk ws ∧
      Distributed ps r.upperPts r.lowerPts us ls stag ∧ List.Forall₂ Wake.SameButS r.wake ws := by
  obtain ⟨content, air, wk, us, ls, ws, hc, hld⟩ := load_ok fl fs name hn r h
  have hwake : List.Forall₂ Wake.SameButS r.wake ws := by
    cases hws : ws with
    | nil => rw [hld.noWake hws]; exact .nil
    | cons w rest => rw [← hws, (hld.wake w rest hws).1]; exact wake_sameButS_map _
  have hpl := hld.placed
  cases hld.divided with
  | «at» b lr hls hrows hu hb =>
    have sign : (∃ p ∈ us ++ ls, PyCmp.lt p.u (lit 0) = true) → (∀ p ∈ us, PyCmp.lt p.u (lit 0) = false) ∧
        ∀ p, ls.head? = some p → PyCmp.lt p.u (lit 0) = true := by
      intro _; refine ⟨hu, ?_⟩; rw [hls]; rintro p ⟨⟩; exact hb
    cases hpl with
    | shared a rest hus h0 hup hlo =>
      refine ⟨content, air, wk, _, ws, us, ls, a, hc, hld.sections, hrows, hld.wakeRows, ⟨rfl, .inr ⟨h0, ?_, ?_⟩, ?_, sign⟩, hwake⟩
      · rw [hup, hus]; exact .cons rfl (sameButS_map _)
      · rw [← List.head?_reverse, hus]; rfl
      · rw [hlo]; exact .cons rfl (sameButS_map _)
    | between a b' ru rl hus hls' h0 frac hf p0 p hp0 hp hup hlo =>
      refine ⟨content, air, wk, _, ws, us, ls, p, hc, hld.sections, hrows, hld.wakeRows, ⟨rfl, .inl ?_, ?_, sign⟩, hwake⟩
      · rw [hup]; exact sameButS_map _
      · rw [hlo]; exact sameButS_map _
  | none a hga hls hrows hu =>
    have hur : ∃ t, us.reverse = a :: t := by
      rw [← List.head?_reverse] at hga
      cases hr : us.reverse with
      | nil => rw [hr] at hga; cases hga
      | cons x t => rw [hr] at hga; cases hga; exact ⟨t, rfl⟩
    obtain ⟨t, ht⟩ := hur
    have hust : us = t.reverse ++ [a] := by rw [← List.reverse_reverse us, ht]; simp
    cases hpl with
    | shared a' rest hus h0 hup hlo =>
      rw [ht] at hus
      obtain ⟨rfl, rfl⟩ := List.cons.inj hus
      refine ⟨content, air, wk, us, ws, t.reverse, [a], a, hc, hld.sections, hrows, hld.wakeRows, ⟨hust, .inl ?_, ?_, ?_⟩, hwake⟩
      · rw [hup, List.reverse_reverse]; exact .cons rfl (sameButS_map _)
      · rw [hlo, hls]; exact .cons rfl (sameButS_map _)
      · rintro ⟨p, hp, hpu⟩; rw [hu p hp] at hpu; cases hpu
    | between a' b' ru rl hus hls' h0 frac hf =>
      exfalso
      rw [ht] at hus
      obtain ⟨rfl, rfl⟩ := List.cons.inj hus
      rw [hls] at hls'
      obtain ⟨rfl, rfl⟩ := List.cons.inj hls'
      have hmem : a ∈ us := by rw [hust]; simp
      obtain ⟨row, hrow, hmk⟩ := rows_mem hrows hmem
      have hne : row ≠ [] := by
        obtain ⟨hdr, hsp, _⟩ := hld.sections.split
        obtain ⟨_, _, hl⟩ := lines_readlines content
        refine hl.nonempty row ?_
        rw [hsp]; simp [hrow]
      obtain ⟨⟨cols, _, hcols⟩, _⟩ := (mk'_iff hinf fl row hne a).1 hmk
      rcases hcols with _ | ⟨-, hcols⟩
      rcases hcols with _ | ⟨-, hcols⟩
      rcases hcols with _ | ⟨-, hcols⟩
      rcases hcols with _ | ⟨hu4, -⟩
      have := hcancel _ _ hu4
      simp [pyDiv, Pt.flip, this] at hf

/-- C41: the numbers of points. -/
theorem points_counted (fl : Floats α) (fs : Files) (name : Text) (hn : name ≠ []) (r : Reader α) (h : Reader.load fl fs name = (r, .ok ()))
    (hcancel : ∀ w v, fl w = some v → PyCmp.eq (v + v * lit (-1)) (lit 0) = true) (hinf : InfAdm α) :
    ∃ content air wk, fs name = .ok content ∧ Sections (readlines content) air wk ∧ r.wakeCount = wk.length ∧
      (r.upperCount + r.lowerCount = air.length + 2 ∨
        (r.upperCount + r.lowerCount = air.length + 1 ∧ ∃ row p, row ∈ air ∧ Pt.mk' fl row = .ok p ∧ PyCmp.eq p.u (lit 0) = true)) := by
  obtain ⟨content, air, wk, ps, ws, us, ls, stag, hc, hs, hr, hw, hd, hwk⟩ := rows_kept fl fs name hn r h hcancel hinf
  refine ⟨content, air, wk, hc, hs, ?_, ?_⟩
  · rw [Reader.wakeCount, hwk.length_eq, ← List.Forall₂.length_eq hw]
  · have h1 : r.lowerCount = ls.length + 1 := by
      have := hd.lower.length_eq
      simpa [Reader.lowerPts, Reader.lowerCount] using this
    have h2 : air.length = us.length + ls.length := by rw [List.Forall₂.length_eq hr, hd.rows, List.length_append]
    rcases hd.upper with hu | ⟨h0, hu, hlast⟩
    · left
      have : r.upperCount = us.length + 1 := by
        have := hu.length_eq
        simpa [Reader.upperPts, Reader.upperCount] using this
      omega
    · right
      have : r.upperCount = us.length := by
        have := hu.length_eq
        simpa [Reader.upperPts, Reader.upperCount] using this
      refine ⟨by omega, ?_⟩
      have hmem : stag ∈ ps := by
        rw [hd.rows, List.mem_append]; exact .inl (List.mem_of_getLast? hlast)
      obtain ⟨row, h3, h4⟩ := rows_mem hr hmem
      exact ⟨row, stag, h3, h4, h0⟩

end generic

section real
variable [PySpecial ℝ]

theorem lt_false {a b : ℝ} : PyCmp.lt a b = false ↔ b ≤ a := by rw [Bool.eq_false_iff, Ne, real_lt, not_lt]

theorem pt_at_s (f : ℝ → ℝ) (p : Pt ℝ) : (p.at f).s = f p.s := rfl

/-- C42: arc length starts at zero on both surfaces and in the wake, and does not decrease along them if it does not decrease in the file. -/
theorem arc_length (fl : Floats ℝ) (fs : Files) (name : Text) (hn : name ≠ []) (r : Reader ℝ) (h : Reader.load fl fs name = (r, .ok ())) :
    (∃ p, r.upperPts.head? = some p ∧ p.s = 0) ∧ (∃ p, r.lowerPts.head? = some p ∧ p.s = 0) ∧ (∀ w, r.wake.head? = some w → w.s = 0) ∧
      ∃ content air wk ps ws, fs name = .ok content ∧ Sections (readlines content) air wk ∧ Rows fl air ps ∧ WakeRows fl wk ws ∧
        ((ps.map Pt.s).Pairwise (· ≤ ·) → (r.upperPts.map Pt.s).Pairwise (· ≤ ·) ∧ (r.lowerPts.map Pt.s).Pairwise (· ≤ ·)) ∧
        ((ws.map Wake.s).Pairwise (· ≤ ·) → (r.wake.map Wake.s).Pairwise (· ≤ ·)) := by
  obtain ⟨content, air, wk, us, ls, ws, hc, hld⟩ := load_ok fl fs name hn r h
  have hwake0 : ∀ w, r.wake.head? = some w → w.s = 0 := by
    intro w hw
    cases hws : ws with
    | nil => rw [hld.noWake hws] at hw; cases hw
    | cons v rest =>
      rw [(hld.wake v rest hws).1, hws] at hw
      cases hw; simp [Wake.at]
  have hwakeS : (ws.map Wake.s).Pairwise (· ≤ ·) → (r.wake.map Wake.s).Pairwise (· ≤ ·) := by
    intro hp
    cases hws : ws with
    | nil => rw [hld.noWake hws]; simp
    | cons v rest =>
      rw [(hld.wake v rest hws).1]
      rw [List.pairwise_map] at hp ⊢
      rw [List.pairwise_map]
      exact hp.imp fun {a b} hab => by simp only [Wake.at]; linarith
  -- the shifted rows
  have shiftU : ∀ (σ : ℝ) (l : List (Pt ℝ)), (l.map Pt.s).Pairwise (· ≤ ·) → ((l.reverse.map (Pt.at (σ - ·))).map Pt.s).Pairwise (· ≤ ·) := by
    intro σ l hl
    rw [List.map_map, List.pairwise_map, List.pairwise_reverse]
    rw [List.pairwise_map] at hl
    exact hl.imp fun {a b} hab => by simp only [Function.comp, Pt.at]; linarith
  have shiftL : ∀ (σ : ℝ) (l : List (Pt ℝ)), (l.map Pt.s).Pairwise (· ≤ ·) →
      (((l.map Pt.flip).map (Pt.at (· - σ))).map Pt.s).Pairwise (· ≤ ·) := by
    intro σ l hl
    rw [List.map_map, List.map_map, List.pairwise_map]
    rw [List.pairwise_map] at hl
    exact hl.imp fun {a b} hab => by simp only [Function.comp, Pt.at, Pt.flip]; linarith
  obtain ⟨ps, hrows, hsplit⟩ : ∃ ps, Rows fl air ps ∧ ((ps.map Pt.s).Pairwise (· ≤ ·) → (us.map Pt.s).Pairwise (· ≤ ·) ∧ (ls.map Pt.s).Pairwise (· ≤ ·)) := by
    cases hld.divided with
    | «at» b lr hls hrows hu hb =>
      refine ⟨_, hrows, fun hp => ?_⟩
      rw [List.map_append, List.pairwise_append] at hp
      exact ⟨hp.1, hp.2.1⟩
    | none a hga hls hrows hu => exact ⟨_, hrows, fun hp => ⟨hp, by rw [hls]; simp⟩⟩
  cases hld.placed with
  | shared a rest hus h0 hup hlo cu ca cl =>
    have ha : a.s = 0 := by
      have hmem : a ∈ us := by rw [← List.mem_reverse, hus]; simp
      obtain ⟨row, _, hrow⟩ := hld.divided.mem hmem
      have h1 := lt_false.1 ca
      have h2 := lt_false.1 (mk'_s hrow)
      simp only [real_lit, Rat.cast_zero] at h1 h2
      linarith
    refine ⟨⟨_, by rw [hup]; rfl, by simp [Pt.at, ha]⟩, ⟨_, by rw [hlo]; rfl, by simp [Pt.at, ha]⟩, hwake0, content, air, wk, ps, ws, hc,
      hld.sections, hrows, hld.wakeRows, fun hp => ?_, hwakeS⟩
    obtain ⟨p1, p2⟩ := hsplit hp
    have e : a.at (fun s => a.s - s - a.s) = a.at (a.s - ·) := by simp [Pt.at, ha]
    constructor
    · rw [hup, e, ← List.map_cons (f := Pt.at (a.s - ·)), ← hus]; exact shiftU _ _ p1
    · rw [hlo, List.map_cons, List.pairwise_cons]
      refine ⟨?_, shiftL _ _ p2⟩
      intro x hx
      rw [List.map_map, List.map_map] at hx
      obtain ⟨q, hq, rfl⟩ := List.mem_map.1 hx
      have := cl q hq
      rw [lt_false, real_lit, Rat.cast_zero] at this
      simpa [Pt.at, Pt.flip, ha] using this
  | between a b ru rl hus hls h0 frac hf p0 p hp0 hp hup hlo cu cl =>
    refine ⟨⟨_, by rw [hup]; rfl, by simp [Pt.at]⟩, ⟨_, by rw [hlo]; rfl, by simp [Pt.at]⟩, hwake0, content, air, wk, ps, ws, hc,
      hld.sections, hrows, hld.wakeRows, fun hps => ?_, hwakeS⟩
    obtain ⟨p1, p2⟩ := hsplit hps
    constructor
    · rw [hup, List.map_cons, List.map_cons, List.pairwise_cons]
      refine ⟨?_, shiftU _ _ p1⟩
      intro x hx
      rw [List.map_map] at hx
      obtain ⟨q, hq, rfl⟩ := List.mem_map.1 hx
      have := cu q (List.mem_cons_of_mem _ (List.mem_reverse.1 hq))
      rw [lt_false, real_lit, Rat.cast_zero] at this
      simpa [Pt.at] using this
    · rw [hlo, List.map_cons, List.map_cons, List.pairwise_cons]
      refine ⟨?_, shiftL _ _ p2⟩
      intro x hx
      rw [List.map_map, List.map_map] at hx
      obtain ⟨q, hq, rfl⟩ := List.mem_map.1 hx
      have := cl q (List.mem_cons_of_mem _ hq)
      rw [lt_false, real_lit, Rat.cast_zero] at this
      simpa [Pt.at, Pt.flip] using this

end real
end IBL.XFoil

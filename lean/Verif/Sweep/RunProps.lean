import Verif.Sweep.RunModel
import Verif.Sweep.Props
import Verif.Sweep.ParamProps

/-!
# C122: a sweep as a whole
-/

set_option autoImplicit false

namespace Verif.Sweep

set_option linter.unusedSectionVars false
variable {K : Type} [Field K] [LinearOrder K] [IsStrictOrderedRing K]

/-- Memory at the beginning of attempts. -/
inductive Reach (sv : Solver K) (l : List (Entry K × K)) (ns : Nat) (st : Store K) (w : Fields K)
    (states : Nat → Fields K) : Run K → Prop
  | start (r : Run K) : start sv ns st w states = .more r → Reach sv l ns st w states r
  | step (r r' : Run K) : Reach sv l ns st w states r → attempt1 sv l (1 / (ns : K)) r = .more r' →
      Reach sv l ns st w states r'

/-- A list of accepted solutions, last one first: each was computed from the problem and the guess that belong to it. -/
def Chain (sv : Solver K) (l : List (Entry K × K)) (st : Store K) (w : Fields K) : List (Rec K) → Prop
  | [] => True
  | [x] => x.s = 0 ∧ x.before = st ∧ x.guess = w ∧ sv x.n x.before x.guess = (true, x.after, x.w)
  | x :: y :: older => y.s < x.s ∧ (∃ p, setParameters x.s l p = .ok x.before) ∧
      (older = [] → x.guess = y.w) ∧
      (∀ z rest, older = z :: rest → ∀ i j, x.guess i j =
        extrapolated (min (older.length + 1) 3) (fun k => ((y :: older).map Rec.s).getD k 0) x.s
          (fun k => ((y :: older).map fun q => q.w i j).getD k 0)) ∧
      sv x.n x.before x.guess = (true, x.after, x.w) ∧ Chain sv l st w (y :: older)

/-- Invariant at the beginning of each attempt. -/
structure Ok (sv : Solver K) (l : List (Entry K × K)) (st : Store K) (w : Fields K) (states : Nat → Fields K)
    (r : Run K) : Prop where
  ne : ∃ x older, r.out = x :: older ∧ r.w = x.w
  hist : r.hist = runAccepts (Hist.init 3 states) (r.out.map fun x => (x.s, x.w))
  ds : 0 < r.ds
  chain : Chain sv l st w r.out

theorem Ok.view {sv : Solver K} {l : List (Entry K × K)} {st : Store K} {w : Fields K} {states : Nat → Fields K}
    {r : Run K} (h : Ok sv l st w states r) : r.hist.size = min r.out.length 3 ∧
    ∀ k, (hk : k < r.out.length) → k < 3 → r.hist.sHist k = (r.out[k]).s ∧ r.hist.state k = (r.out[k]).w := by
  have := C75_history (K := K) 3 (by omega) states (r.out.map fun x => (x.s, x.w))
  rw [← h.hist] at this
  obtain ⟨-, h2, h3, -⟩ := this
  rw [List.length_map] at h2
  refine ⟨h2, fun k hk hk3 => ?_⟩
  have := h3 k (by rw [List.length_map]; exact hk) hk3
  simpa using this

theorem extrapolated_congr (n : Nat) (s s' : Nat → K) (sNew : K) (y y' : Nat → K) (hn : 0 < n)
    (hs : ∀ k < n, s k = s' k) (hy : ∀ k < n, y k = y' k) : extrapolated n s sNew y = extrapolated n s' sNew y' := by
  have hc : ∀ i < n, coefficient n s sNew i = coefficient n s' sNew i := by
    intro i hi
    unfold coefficient
    split
    · rfl
    · have : (List.range n).foldl (fun (nd : K × K) j =>
          if j ≠ i then (nd.1 * (sNew - s j), nd.2 * (s i - s j)) else nd) (1, 1) =
          (List.range n).foldl (fun (nd : K × K) j =>
          if j ≠ i then (nd.1 * (sNew - s' j), nd.2 * (s' i - s' j)) else nd) (1, 1) := by
        apply List.foldl_ext
        intro a j hj
        rw [hs j (List.mem_range.mp hj), hs i hi]
      simp only [this]
  unfold extrapolated
  rw [hc 0 hn, hy 0 hn]
  apply List.foldl_ext
  intro a k hk
  have := List.mem_range.mp hk
  rw [hc (k + 1) (by omega), hy (k + 1) (by omega)]

theorem guess_first {sv : Solver K} {l : List (Entry K × K)} {st : Store K} {w : Fields K} {states : Nat → Fields K}
    {r : Run K} (h : Ok sv l st w states r) {x : Rec K} (hx : r.out = [x]) (sNew : K) :
    guess r.hist sNew r.w = x.w := by
  obtain ⟨h1, -⟩ := h.view
  obtain ⟨y, older, h2, h3⟩ := h.ne
  rw [hx] at h1 h2
  cases h2
  unfold guess
  rw [h1]
  simp [h3]

theorem guess_later {sv : Solver K} {l : List (Entry K × K)} {st : Store K} {w : Fields K} {states : Nat → Fields K}
    {r : Run K} (h : Ok sv l st w states r) {x y : Rec K} {older : List (Rec K)} (hx : r.out = x :: y :: older) (sNew : K)
    (i j : Nat) : guess r.hist sNew r.w i j = extrapolated (min (older.length + 2) 3)
      (fun k => ((x :: y :: older).map Rec.s).getD k 0) sNew
      (fun k => ((x :: y :: older).map fun q => q.w i j).getD k 0) := by
  obtain ⟨h1, h2⟩ := h.view
  have hlen : r.out.length = older.length + 2 := by rw [hx]; rfl
  rw [hlen] at h1
  unfold guess
  rw [if_pos (by omega)]
  rw [← hx, h1]
  apply extrapolated_congr _ _ _ _ _ _ (by omega)
  · intro k hk
    have hk' : k < r.out.length := by omega
    rw [(h2 k hk' (by omega)).1]
    simp [List.getD_eq_getElem?_getD, hk']
  · intro k hk
    have hk' : k < r.out.length := by omega
    rw [(h2 k hk' (by omega)).2]
    simp [List.getD_eq_getElem?_getD, hk']

theorem accepted_ok {sv : Solver K} {l : List (Entry K × K)} {st : Store K} {w : Fields K} {states : Nat → Fields K}
    {r : Run K} (h : Ok sv l st w states r) {p : Store K}
    (hp : setParameters (r.hist.sHist 0 + r.ds) l r.p = .ok p)
    (hs : (sv r.n p (guess r.hist (r.hist.sHist 0 + r.ds) r.w)).1 = true) :
    Ok sv l st w states (r.accepted ⟨r.hist.sHist 0 + r.ds, r.n, p, guess r.hist (r.hist.sHist 0 + r.ds) r.w,
      (sv r.n p (guess r.hist (r.hist.sHist 0 + r.ds) r.w)).2.1,
      (sv r.n p (guess r.hist (r.hist.sHist 0 + r.ds) r.w)).2.2⟩) := by
  obtain ⟨y, older, hy, hw⟩ := h.ne
  have hs0 : r.hist.sHist 0 = y.s := by
    have := (h.view.2 0 (by rw [hy]; simp) (by omega)).1
    simpa [hy] using this
  refine ⟨⟨_, _, rfl, rfl⟩, ?_, h.ds, ?_⟩
  · simp only [Run.accepted, List.map_cons, runAccepts]
    rw [← h.hist]
  · simp only [Run.accepted, hy]
    have hch := h.chain
    rw [hy] at hch
    refine ⟨by simp only; rw [hs0]; linarith [h.ds], ⟨r.p, hp⟩, fun ho => ?_, fun z rest ho i j => ?_, ?_, hch⟩
    · exact guess_first h (by rw [hy, ho]) _
    · subst ho
      have := guess_later h hy (r.hist.sHist 0 + r.ds) i j
      simpa using this
    · exact Prod.ext hs rfl

theorem step_ok {sv : Solver K} {l : List (Entry K × K)} {st : Store K} {w : Fields K} {states : Nat → Fields K} {ds0 : K}
    {r r' : Run K} (h : Ok sv l st w states r) :
    (attempt1 sv l ds0 r = .more r' → Ok sv l st w states r') ∧
    (attempt1 sv l ds0 r = .finished r' → Ok sv l st w states r') ∧
    (attempt1 sv l ds0 r = .thrown r' → r'.w = r.w ∧ r'.hist = r.hist ∧ r'.out = r.out) := by
  have hst : r.hist.state 0 = r.w := by
    obtain ⟨y, older, hy, hw⟩ := h.ne
    have := (h.view.2 0 (by rw [hy]; simp) (by omega)).2
    rw [this, hw]
    simp [hy]
  unfold attempt1
  cases hp : setParameters (r.hist.sHist 0 + r.ds) l r.p with
  | throw => simp only [hp]; exact ⟨nofun, nofun, fun e => by cases e; exact ⟨rfl, rfl, rfl⟩⟩
  | ub => simp only [hp]; exact ⟨nofun, nofun, nofun⟩
  | ok p =>
    simp only [hp]
    cases hs : (sv r.n p (guess r.hist (r.hist.sHist 0 + r.ds) r.w)).1 with
    | true =>
      have := accepted_ok h hp hs
      simp only [if_true]
      split
      · exact ⟨nofun, fun e => by cases e; exact this, nofun⟩
      · exact ⟨fun e => by cases e; exact this, nofun, nofun⟩
    | false =>
      simp only [Bool.false_eq_true, if_false]
      split
      · exact ⟨nofun, nofun, fun e => by cases e; exact ⟨hst, rfl, rfl⟩⟩
      · refine ⟨fun e => ?_, nofun, nofun⟩
        cases e
        obtain ⟨y, older, hy, hw⟩ := h.ne
        exact ⟨⟨y, older, hy, hst.trans hw⟩, h.hist, by have := h.ds; simp only; positivity, h.chain⟩

theorem start_ok {sv : Solver K} {l : List (Entry K × K)} {st : Store K} {w : Fields K} {states : Nat → Fields K} {ns : Nat}
    (hns : 0 < ns) {r : Run K} (h : start sv ns st w states = .more r) : Ok sv l st w states r := by
  unfold start at h
  cases hs : (sv 0 st w).1 with
  | false => simp [hs] at h
  | true =>
    simp only [hs, if_true, Outcome.more.injEq] at h
    subst h
    refine ⟨⟨_, _, rfl, rfl⟩, rfl, ?_, ?_⟩
    · have : (0 : K) < ns := by exact_mod_cast hns
      simp only [Run.accepted]
      positivity
    · exact ⟨rfl, rfl, rfl, Prod.ext hs rfl⟩

theorem reach_ok {sv : Solver K} {l : List (Entry K × K)} {ns : Nat} {st : Store K} {w : Fields K}
    {states : Nat → Fields K} (hns : 0 < ns) {r : Run K} (h : Reach sv l ns st w states r) : Ok sv l st w states r := by
  induction h with
  | start r h => exact start_ok hns h
  | step r r' _ h ih => exact (step_ok ih).1 h

/-- C122 (solutions): whatever attempts fail, every solution that was written is a converged solution of the problem with
the parameters of its path coordinate.  The first is solved from the initial fields with the initial parameters, the
second starts from the first, later ones from the extrapolation of the two or three last solutions.  Fields that failed
attempts leave behind are never used. -/
theorem C122_solutions {sv : Solver K} {l : List (Entry K × K)} {ns : Nat} {st : Store K} {w : Fields K}
    {states : Nat → Fields K} (hns : 0 < ns) {r r' : Run K} (h : Reach sv l ns st w states r) :
    Chain sv l st w r.out ∧ (attempt1 sv l (1 / (ns : K)) r = .finished r' → Chain sv l st w r'.out) :=
  ⟨(reach_ok hns h).chain, fun e => ((step_ok (reach_ok hns h)).2.1 e).chain⟩

/-- C122 (parameters): the parameters of a written solution at path coordinate `s` are `initial + s * change`. -/
theorem C122_parameters {sv : Solver K} {l : List (Entry K × K)} {ns : Nat} {st : Store K} {w : Fields K}
    {states : Nat → Fields K} (hns : 0 < ns) (hd : Distinct l) (hi : ∀ ev ∈ l, st.get ev.1.par = .ok ev.2) {r : Run K}
    (h : Reach sv l ns st w states r) (x : Rec K) (hx : x ∈ r.out) :
    0 ≤ x.s ∧ ∀ ev ∈ l, x.before.get ev.1.par = .ok (ev.2 + x.s * ev.1.change) := by
  have key : ∀ out : List (Rec K), Chain sv l st w out → ∀ x ∈ out, 0 ≤ x.s ∧
      ∀ ev ∈ l, x.before.get ev.1.par = .ok (ev.2 + x.s * ev.1.change) := by
    intro out
    induction out with
    | nil => intro _ x hx; cases hx
    | cons y out ih =>
      intro hc x hx
      cases out with
      | nil =>
        obtain rfl : x = y := by simpa using hx
        obtain ⟨h1, h2, -⟩ := hc
        rw [h1, h2]
        exact ⟨le_refl _, fun ev hev => by rw [hi ev hev, zero_mul, add_zero]⟩
      | cons z older =>
        obtain ⟨h1, ⟨p, h2⟩, -, -, -, h3⟩ := hc
        rcases List.mem_cons.mp hx with rfl | hx
        · exact ⟨((ih h3 z (by simp)).1.trans h1.le), (setParameters_spec x.s l p x.before hd h2).1⟩
        · exact ih h3 x hx
  exact key r.out (reach_ok hns h).chain x hx

theorem chain_sorted {sv : Solver K} {l : List (Entry K × K)} {st : Store K} {w : Fields K} : ∀ {out : List (Rec K)},
    Chain sv l st w out → (out.map Rec.s).Pairwise (· > ·) := by
  intro out
  induction out with
  | nil => intro _; simp
  | cons y out ih =>
    intro hc
    cases out with
    | nil => simp
    | cons z older =>
      obtain ⟨h1, -, -, -, -, h3⟩ := hc
      have h4 := ih h3
      rw [List.map_cons, List.pairwise_cons]
      refine ⟨fun a ha => ?_, h4⟩
      rw [List.map_cons] at ha h4
      rcases List.mem_cons.mp ha with rfl | ha
      · exact h1
      · exact lt_trans ((List.pairwise_cons.mp h4).1 a ha) h1

/-- C122 (guess): a component of the fields that was a polynomial of the path coordinate in the last solutions (degree one
with two solutions, two with more) has the value of that polynomial in the guess. -/
theorem C122_guess {sv : Solver K} {l : List (Entry K × K)} {ns : Nat} {st : Store K} {w : Fields K}
    {states : Nat → Fields K} (hns : 0 < ns) {r : Run K} (h : Reach sv l ns st w states r) (x y z : Rec K)
    (older : List (Rec K)) (hr : r.out = x :: y :: z :: older) (i j : Nat) (q : Polynomial K)
    (hq : q.degree < ((min (older.length + 2) 3 : Nat) : WithBot Nat))
    (hv : ∀ u ∈ y :: z :: older, u.w i j = q.eval u.s) : x.guess i j = q.eval x.s := by
  have hc := (reach_ok hns h).chain
  rw [hr] at hc
  obtain ⟨-, -, -, hg, -, hc'⟩ := hc
  rw [hg z older rfl i j]
  have hsort := chain_sorted hc'
  have e := extrapolated_congr (min ((z :: older).length + 1) 3) (fun k => ((y :: z :: older).map Rec.s).getD k 0)
    (fun k => ((y :: z :: older).map Rec.s).getD k 0) x.s
    (fun k => ((y :: z :: older).map fun u => u.w i j).getD k 0)
    (fun k => q.eval (((y :: z :: older).map Rec.s).getD k 0)) (by simp) (fun _ _ => rfl) (fun k hk => by
      have hk' : k < (y :: z :: older).length := by simp at hk ⊢; omega
      simp only [List.getD_eq_getElem?_getD, List.getElem?_map, List.getElem?_eq_getElem hk', Option.map_some,
        Option.getD_some]
      exact hv _ (List.getElem_mem _))
  rw [e]
  apply C21_exact _ (by simp)
  · intro a b ha hb hab
    have ha' : a < ((y :: z :: older).map Rec.s).length := by simp at ha ⊢; omega
    have hb' : b < ((y :: z :: older).map Rec.s).length := by simp at hb ⊢; omega
    simp only [List.getD_eq_getElem?_getD, List.getElem?_eq_getElem ha', List.getElem?_eq_getElem hb',
      Option.getD_some] at hab
    rw [List.pairwise_iff_getElem] at hsort
    rcases lt_trichotomy a b with hlt | rfl | hlt
    · exact absurd hab (ne_of_gt (hsort a b ha' hb' hlt))
    · rfl
    · exact absurd hab.symm (ne_of_gt (hsort b a hb' ha' hlt))
  · simpa using hq

/-- C122 (end): after an exception the fields are those of the last solution, and no solution is lost. -/
theorem C122_failure {sv : Solver K} {l : List (Entry K × K)} {ns : Nat} {st : Store K} {w : Fields K}
    {states : Nat → Fields K} (hns : 0 < ns) {r r' : Run K} (h : Reach sv l ns st w states r)
    (ht : attempt1 sv l (1 / (ns : K)) r = .thrown r') :
    r'.out = r.out ∧ ∃ x older, r'.out = x :: older ∧ r'.w = x.w := by
  have hok := reach_ok hns h
  obtain ⟨h1, -, h3⟩ := (step_ok hok).2.2 ht
  obtain ⟨x, older, hx, hw⟩ := hok.ne
  exact ⟨h3, x, older, h3.trans hx, h1.trans hw⟩

/-- C122 (violated): `reset` restores the fields but not the parameters.  When a sweep gives up, the system has the fields
of the last solution, at `x.s`, and the parameters of the attempt that failed, at a larger value of the path coordinate.
`hsv`: the solver does not change the swept parameter. -/
theorem C122_violated_reset {sv : Solver K} {l : List (Entry K × K)} {ns : Nat} {st : Store K} {w : Fields K}
    {states : Nat → Fields K} (hns : 0 < ns) (hd : Distinct l) {r : Run K} (h : Reach sv l ns st w states r)
    (ev : Entry K × K) (hev : ev ∈ l) (hne : ev.1.change ≠ 0) {p : Store K}
    (hp : setParameters (r.hist.sHist 0 + r.ds) l r.p = .ok p)
    (hf : (sv r.n p (guess r.hist (r.hist.sHist 0 + r.ds) r.w)).1 = false)
    (hsv : (sv r.n p (guess r.hist (r.hist.sHist 0 + r.ds) r.w)).2.1.get ev.1.par = p.get ev.1.par)
    (hsmall : r.ds * (1 / 2) < 1 / 10 * (1 / (ns : K))) :
    ∃ r' x older, attempt1 sv l (1 / (ns : K)) r = .thrown r' ∧ r'.out = x :: older ∧ r'.w = x.w ∧
      r'.p.get ev.1.par = .ok (ev.2 + (x.s + r.ds) * ev.1.change) ∧
      r'.p.get ev.1.par ≠ .ok (ev.2 + x.s * ev.1.change) := by
  have hok := reach_ok hns h
  obtain ⟨x, older, hx, hw⟩ := hok.ne
  have hs0 : r.hist.sHist 0 = x.s := by
    have := (hok.view.2 0 (by rw [hx]; simp) (by omega)).1
    simpa [hx] using this
  have hst : r.hist.state 0 = x.w := by
    have := (hok.view.2 0 (by rw [hx]; simp) (by omega)).2
    simpa [hx] using this
  have hget := (setParameters_spec _ l r.p p hd hp).1 ev hev
  rw [hs0] at hget
  refine ⟨⟨(sv r.n p (guess r.hist (r.hist.sHist 0 + r.ds) r.w)).2.1, r.hist.state 0, r.hist, r.ds * (1 / 2), r.n + 1,
    r.out⟩, x, older, ?_, hx, hst, hsv.trans hget, ?_⟩
  · unfold attempt1
    simp only [hp, hf, Bool.false_eq_true, if_false, if_pos hsmall]
  · simp only [hsv, hget, ne_eq, Res.ok.injEq, add_right_inj]
    intro e
    have := mul_right_cancel₀ hne e
    linarith [hok.ds]

/-- C122 (lattice parameters): the one-dimensional program accepts `cell_param` as a name but rejects every sweep with
it; sweeps that are accepted conserve the sum of volume fractions up to the tolerance. -/
theorem C122_cell (l : List (Entry K)) :
    ((∃ e ∈ l, ∃ i, e.par = .cell i) → readR1d l = .throw) ∧ (readR1d l = .ok () → accepts l) := by
  constructor
  · rintro ⟨e, he, i, hi⟩
    unfold readR1d
    rw [if_pos]
    rw [List.any_eq_true]
    exact ⟨e, he, by rw [hi]⟩
  · intro h
    unfold readR1d at h
    split at h
    · cases h
    · split at h
      · assumption
      · cases h

/-! ### Examples -/

/-- Some attempts of a sweep. -/
def runN (sv : Solver K) (l : List (Entry K × K)) (ns : Nat) (st : Store K) (w : Fields K) (states : Nat → Fields K) :
    Nat → Outcome K
  | 0 => start sv ns st w states
  | n + 1 => match runN sv l ns st w states n with
    | .more r => attempt1 sv l (1 / (ns : K)) r
    | o => o

theorem reach_runN {sv : Solver K} {l : List (Entry K × K)} {ns : Nat} {st : Store K} {w : Fields K}
    {states : Nat → Fields K} : ∀ (n : Nat) (r : Run K), runN sv l ns st w states n = .more r →
      Reach sv l ns st w states r := by
  intro n
  induction n with
  | zero => intro r h; exact .start r h
  | succ n ih =>
    intro r h
    rw [runN] at h
    cases h' : runN sv l ns st w states n with
    | more r' => rw [h'] at h; exact .step r' r (ih r' h') h
    | finished r' => rw [h'] at h; cases h
    | thrown r' => rw [h'] at h; cases h
    | ub => rw [h'] at h; cases h

/-- Chi goes from 20 to 28. -/
def exChi : List (Entry ℚ × ℚ) := [(⟨.chi 0 1, 8⟩, 20)]

/-- Fields equal to `s ^ 2` with the value of chi; attempt 2 fails and leaves -1, as do all attempts from `m` on. -/
def exSv (m : Nat) : Solver ℚ := fun n p _ =>
  if n = 2 ∨ m ≤ n then (false, p, fun _ _ => -1)
  else (true, p, fun _ _ => ((p.chi 0 1 - 20) / 8) * ((p.chi 0 1 - 20) / 8))

/-- Kind of outcome (0: more, 1: finished, 2: exception), chi and fields of the system; path coordinates, guesses and
fields of the solutions. -/
def exOut : Outcome ℚ → List (List ℚ)
  | .more r => [0, r.p.chi 0 1, r.w 0 0] :: r.out.map fun x => [x.s, x.guess 0 0, x.w 0 0]
  | .finished r => [1, r.p.chi 0 1, r.w 0 0] :: r.out.map fun x => [x.s, x.guess 0 0, x.w 0 0]
  | .thrown r => [2, r.p.chi 0 1, r.w 0 0] :: r.out.map fun x => [x.s, x.guess 0 0, x.w 0 0]
  | .ub => []

-- two steps, of which the second fails once: the guesses are 5, 0 (first solution), 3/8 (linear) and 1 (quadratic, exact)
example : exOut (runN (exSv 10) exChi 2 exStore (fun _ _ => 5) (fun _ _ _ => 9) 4) =
    [[1, 28, 1], [1, 1, 1], [3 / 4, 3 / 8, 9 / 16], [1 / 2, 0, 1 / 4], [0, 5, 0]] := by
  decide +kernel

-- after the exception: fields of s = 1/2, chi of s = 1/2 + 1/16
example : exOut (runN (exSv 2) exChi 2 exStore (fun _ _ => 5) (fun _ _ _ => 9) 5) =
    [[2, 20 + 9 / 16 * 8, 1 / 4], [1 / 2, 0, 1 / 4], [0, 5, 0]] := by
  decide +kernel

/-- A run with three solutions after the failure, before the last attempt. -/
theorem ex_reach : ∃ r, Reach (exSv 10) exChi 2 exStore (fun _ _ => 5) (fun _ _ _ => 9) r ∧ r.out.length = 3 := by
  have h : (match runN (exSv 10) exChi 2 exStore (fun _ _ => 5) (fun _ _ _ => 9) 3 with
      | .more r => decide (r.out.length = 3) | _ => false) = true := by decide +kernel
  cases hr : runN (exSv 10) exChi 2 exStore (fun _ _ => 5) (fun _ _ _ => 9) 3 with
  | more r => rw [hr] at h; exact ⟨r, reach_runN 3 r hr, by simpa using h⟩
  | finished r => rw [hr] at h; cases h
  | thrown r => rw [hr] at h; cases h
  | ub => rw [hr] at h; cases h

theorem exChi_distinct : Distinct exChi := by simp [Distinct, exChi]

example : ∃ r : Run ℚ, (Chain (exSv 10) exChi exStore (fun _ _ => 5) r.out ∧ r.out.length = 3) ∧
    ∀ x ∈ r.out, ∀ ev ∈ exChi, x.before.get ev.1.par = .ok (ev.2 + x.s * ev.1.change) := by
  obtain ⟨r, h, hl⟩ := ex_reach
  exact ⟨r, ⟨(C122_solutions (r' := r) (by decide) h).1, hl⟩, fun x hx =>
    (C122_parameters (by decide) exChi_distinct (by simp [exChi, Store.get, exStore]) h x hx).2⟩

-- the third solution of this run starts from the line through the first two
example : ∃ (r : Run ℚ) (x : Rec ℚ) (older : List (Rec ℚ)), Reach (exSv 10) exChi 2 exStore (fun _ _ => 5) (fun _ _ _ => 9) r ∧
    r.out = x :: older ∧ x.guess 0 0 = Polynomial.eval x.s (Polynomial.C (1 / 2) * Polynomial.X) := by
  have h : (match runN (exSv 10) exChi 2 exStore (fun _ _ => 5) (fun _ _ _ => 9) 3 with
      | .more r => match r.out with
        | [_, y, z] => decide (y.w 0 0 = 1 / 2 * y.s) && decide (z.w 0 0 = 1 / 2 * z.s)
        | _ => false
      | _ => false) = true := by decide +kernel
  cases hr : runN (exSv 10) exChi 2 exStore (fun _ _ => 5) (fun _ _ _ => 9) 3 with
  | more r =>
    rw [hr] at h
    simp only at h
    split at h
    · rename_i x y z ho
      simp only [Bool.and_eq_true, decide_eq_true_eq] at h
      refine ⟨r, x, [y, z], reach_runN 3 r hr, ho, C122_guess (by decide) (reach_runN 3 r hr) x y z [] ho 0 0 _ ?_ ?_⟩
      · rw [Polynomial.degree_C_mul_X (by norm_num)]
        exact_mod_cast (by decide : 1 < min (0 + 2) 3)
      · intro u hu
        rcases List.mem_cons.mp hu with rfl | hu
        · rw [h.1]; simp
        · obtain rfl : u = z := by simpa using hu
          rw [h.2]; simp
    · cases h
  | finished r => rw [hr] at h; cases h
  | thrown r => rw [hr] at h; cases h
  | ub => rw [hr] at h; cases h

-- the hypotheses of the violation are met by the run that gives up
example : ∃ (r r' : Run ℚ) (x : Rec ℚ) (older : List (Rec ℚ)),
    Reach (exSv 2) exChi 2 exStore (fun _ _ => 5) (fun _ _ _ => 9) r ∧ attempt1 (exSv 2) exChi (1 / ((2 : Nat) : ℚ)) r = .thrown r' ∧
      r'.out = x :: older ∧ r'.w = x.w ∧ r'.p.get (.chi 0 1) ≠ .ok (20 + x.s * 8) := by
  have h : (match runN (exSv 2) exChi 2 exStore (fun _ _ => 5) (fun _ _ _ => 9) 4 with
      | .more r => decide (r.n = 5) && decide (r.ds = 1 / 16) && decide (r.p.nM = 2) | _ => false) = true := by
    decide +kernel
  cases hr : runN (exSv 2) exChi 2 exStore (fun _ _ => 5) (fun _ _ _ => 9) 4 with
  | more r =>
    rw [hr] at h
    simp only [Bool.and_eq_true, decide_eq_true_eq] at h
    obtain ⟨⟨h1, h2⟩, h3⟩ := h
    obtain ⟨p, hp⟩ : ∃ p, setParameters (r.hist.sHist 0 + r.ds) exChi r.p = .ok p := by
      simp [setParameters, exChi, Store.set, h3, Res.bind]
    obtain ⟨r', x, older, a1, a2, a3, -, a5⟩ := C122_violated_reset (by decide) exChi_distinct (reach_runN 4 r hr)
      (⟨.chi 0 1, 8⟩, 20) (by simp [exChi]) (by norm_num) hp (by simp [exSv, h1]) (by simp [exSv, h1])
      (by rw [h2]; norm_num)
    exact ⟨r, r', x, older, reach_runN 4 r hr, a1, a2, a3, a5⟩
  | finished r => rw [hr] at h; cases h
  | thrown r => rw [hr] at h; cases h
  | ub => rw [hr] at h; cases h

example : readR1d ([⟨.cell 0, 1⟩] : List (Entry ℚ)) = .throw := (C122_cell _).1 ⟨⟨.cell 0, 1⟩, by simp, 0, rfl⟩
example : readR1d ([⟨.phiP 0, 1 / 4⟩, ⟨.phiS 0, -1 / 4⟩] : List (Entry ℚ)) = .ok () := by decide +kernel

end Verif.Sweep

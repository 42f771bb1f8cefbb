import Verif.Types.Model
/-
The comparison accepts two ways of writing one type, whatever the table of visited names holds.
-/
namespace Nature.Types

theorem cmp_openR (own : Bool) (f : Bool) (ds : List Ty) (m : String) (c : List Ty) (d : Ty)
    (h : d.lists = true) (vis : Vis) :
    cmp own (.union f ds) (.named m c d) vis = cmp own (.union f ds) d vis := by
  cases d <;> simp [Ty.lists] at h
  simp [cmp, nominal, core, kind0]

theorem any_of {heads : String → Head} {d s : Ty} {ds : List Ty} (hm : d ∈ ds)
    (hd : declaredL heads ds = true)
    (h : d.declared heads = true → ∀ vis, (cmp true d s vis).1 = true) :
    ∀ vis, (cmpAny ds s vis).1 = true := by
  induction ds with
  | nil => cases hm
  | cons x xs ih =>
    intro vis
    simp only [declaredL, Bool.and_eq_true] at hd
    simp only [cmpAny]
    rcases e : cmp true x s vis with ⟨b, v1⟩
    cases b with
    | true => rfl
    | false =>
      rcases List.mem_cons.1 hm with rfl | hm
      · have := h hd.1 vis
        rw [e] at this; cases this
      · exact ih hm hd.2 v1

mutual
theorem cmp_same (heads : String → Head) {d s : Ty} (h : Same d s)
    (hd : d.declared heads = true) (hs : s.declared heads = true) :
    ∀ own vis, (cmp own d s vis).1 = true := by
  intro own vis
  match h with
  | .prim p => simp [cmp, nominal, kind, core, kind0]
  | .allT => cases own <;> simp [cmp, nominal, kind, core, kind0]
  | .fnT => cases own <;> simp [cmp, nominal, kind, core, kind0]
  | .integerT => cases own <;> simp [cmp, nominal, kind, core, kind0, isInteger]
  | .floaterT => cases own <;> simp [cmp, nominal, kind, core, kind0, isFloat]
  | .param n => simp [cmp, nominal, core]
  | .stop => simp [cmp, kind, core, kind0]
  | .ptr h => simp [cmp, nominal, core]; exact cmp_same heads h (by simpa [Ty.declared] using hd) (by simpa [Ty.declared] using hs) _ _
  | .ref h => simp [cmp, nominal, core]; exact cmp_same heads h (by simpa [Ty.declared] using hd) (by simpa [Ty.declared] using hs) _ _
  | .vec h => simp [cmp, nominal, core]; exact cmp_same heads h (by simpa [Ty.declared] using hd) (by simpa [Ty.declared] using hs) _ _
  | .set h => simp [cmp, nominal, core]; exact cmp_same heads h (by simpa [Ty.declared] using hd) (by simpa [Ty.declared] using hs) _ _
  | .chan h => simp [cmp, nominal, core]; exact cmp_same heads h (by simpa [Ty.declared] using hd) (by simpa [Ty.declared] using hs) _ _
  | .arr n h => simp [cmp, nominal, core]; exact cmp_same heads h (by simpa [Ty.declared] using hd) (by simpa [Ty.declared] using hs) _ _
  | .map (k := k) (k' := k') (v := v) (v' := v') hk hv =>
    simp [Ty.declared] at hd hs
    have h1 := cmp_same heads hk hd.1 hs.1 true vis
    simp only [cmp, nominal, core]
    rcases e : cmp true k k' vis with ⟨b, v1⟩
    rw [e] at h1; simp at h1; subst h1
    exact cmp_same heads hv hd.2 hs.2 true v1
  | .tuple (ts := ts) (ss := ss) hl =>
    simp [Ty.declared] at hd hs
    have h1 := cmpL_same heads hl hd hs vis
    simp [cmp, nominal, core, h1.1, h1.2]
  | .fn fl (r := r) (r' := r') (ps := ps) (ps' := ps') hr hl =>
    simp [Ty.declared] at hd hs
    have h1 := cmp_same heads hr hd.1 hs.1 true vis
    simp only [cmp, nominal, core]
    rcases e : cmp true r r' vis with ⟨b, v1⟩
    rw [e] at h1; simp at h1; subst h1
    have h2 := cmpL_same heads hl hd.2 hs.2 v1
    simp [h2.1, h2.2]
  | .struct ns (ts := ts) (ss := ss) hl =>
    simp [Ty.declared] at hd hs
    have h1 := cmpF_same heads hl hd.2 hs.2 ns hd.1 vis
    simp [cmp, nominal, core, h1.1, h1.2]
  | .tagged ns (ts := ts) (ss := ss) hl =>
    simp [Ty.declared] at hd hs
    have h1 := cmpF_same heads hl hd.2 hs.2 ns hd.1 vis
    simp [cmp, nominal, core, h1.1, h1.2]
  | .iface n hl => simp [cmp, nominal, kind, core, kind0]
  | .named n b b' hb hl (a := a) (a' := a') =>
    simp only [Ty.declared, Bool.and_eq_true] at hd hs
    have h1 := cmpL_same heads hl hd.1.1 hs.1.1 vis
    have hp : (kind0 b == .ptr && (kind (.named n a' b') == .prim .null ||
        kind (.named n a' b') == .ref)) = false := by
      cases b <;> simp [kind0]
      cases b' <;> simp [kind, core, kind0, Ty.known, Ty.head] at hd hs ⊢
      · rename_i p; cases p <;> simp [← hd.2] at hs ⊢
      · simp [← hd.2] at hs
    have hu : (kind0 b != .union || nominal (.named n a' b')) = true := by
      cases b <;> simp [kind0, nominal, Ty.lists] at hb ⊢
      cases b' <;> simp [kind0] at hb ⊢
    simp only [cmp, hp, hu]
    simp [h1.2]
  | .union f g ha _ (ds := ds) (ss := ss) =>
    simp only [Ty.declared, Bool.and_eq_true] at hd hs
    simp only [cmp, nominal, core]
    exact each_same heads ha hd.1 hs.1 vis
  | .openL n a hb hs' hh (b := b) =>
    simp only [Ty.declared, Bool.and_eq_true] at hd
    have h1 := cmp_same heads hh hd.1.2 hs false (n :: vis)
    cases b <;> simp [Ty.lists] at hb
    cases s <;> simp [Ty.lists] at hs'
    simp only [cmp, kind0, nominal]
    by_cases hv : n ∈ vis
    · simp [hv]
    · simpa [hv, cmp, nominal, core] using h1
  | .openR n a hb ht hh (b := b) =>
    simp only [Ty.declared, Bool.and_eq_true] at hs
    have h1 := cmp_same heads hh hd hs.1.2 own vis
    cases d <;> simp [Ty.lists] at ht
    rw [cmp_openR _ _ _ _ _ _ hb]
    exact h1
  | .openB n m a c hb hd' hh (b := b) (d := d) =>
    simp only [Ty.declared, Bool.and_eq_true] at hs hd
    have h1 := cmp_same heads hh hd.1.2 hs.1.2 false (n :: vis)
    cases b <;> simp [Ty.lists] at hb
    rw [← cmp_openR _ _ _ m c _ hd'] at h1
    cases d <;> simp [Ty.lists] at hd'
    rw [cmp]
    by_cases hv : n ∈ vis
    · simp [hv, kind0, nominal]
    · simpa [kind0, nominal, hv] using h1

theorem cmpL_same (heads : String → Head) {ds ss : List Ty} (h : SameL ds ss)
    (hd : declaredL heads ds = true) (hs : declaredL heads ss = true) :
    ∀ vis, ds.length = ss.length ∧ (cmpL ds ss vis).1 = true := by
  intro vis
  match h with
  | .nil => simp [cmpL]
  | .cons (t := t) (s := s) (ts := ts) (ss := ss) h hl =>
    simp only [declaredL, Bool.and_eq_true] at hd hs
    have h1 := cmp_same heads h hd.1 hs.1 true vis
    rcases e : cmp true t s vis with ⟨b, v1⟩
    rw [e] at h1; simp at h1; subst h1
    have h2 := cmpL_same heads hl hd.2 hs.2 v1
    simp [cmpL, e, h2.1, h2.2]

theorem cmpF_same (heads : String → Head) {ds ss : List Ty} (h : SameL ds ss)
    (hd : declaredL heads ds = true) (hs : declaredL heads ss = true) :
    ∀ ns : List String, ns.length = ds.length → ∀ vis,
      ds.length = ss.length ∧ (cmpF ns ds ns ss vis).1 = true := by
  intro ns hn vis
  match h with
  | .nil => cases ns <;> simp [cmpF] at hn ⊢
  | .cons (t := t) (s := s) (ts := ts) (ss := ss) h hl =>
    simp only [declaredL, Bool.and_eq_true] at hd hs
    cases ns with
    | nil => simp at hn
    | cons n ns =>
      have h1 := cmp_same heads h hd.1 hs.1 true vis
      rcases e : cmp true t s vis with ⟨b, v1⟩
      rw [e] at h1; simp at h1; subst h1
      have h2 := cmpF_same heads hl hd.2 hs.2 ns (by simpa using hn) v1
      simp [cmpF, e, h2.1, h2.2]

theorem each_same (heads : String → Head) {ds ss : List Ty} (h : Among ds ss)
    (hd : declaredL heads ds = true) (hs : declaredL heads ss = true) :
    ∀ vis, (eachIn (fun s vis => cmpAny ds s vis) ss vis).1 = true := by
  intro vis
  match h with
  | .nil _ => simp [eachIn]
  | .cons (d := d) (s := s) (ss := ss) hm h hl =>
    simp only [declaredL, Bool.and_eq_true] at hs
    have h1 : ∀ vis, (cmpAny ds s vis).1 = true := by
      have hx := fun hd => cmp_same heads h hd hs.1 true
      exact any_of hm hd hx
    rcases e : cmpAny ds s vis with ⟨b, v1⟩
    have h2 := h1 vis
    rw [e] at h2; simp at h2; subst h2
    simp [eachIn, e]
    exact each_same heads hl hd hs.2 v1
end

mutual
/-- Every type is the same as itself. -/
theorem same_refl : ∀ t : Ty, Same t t
  | .prim p => .prim p
  | .allT => .allT
  | .fnT => .fnT
  | .integerT => .integerT
  | .floaterT => .floaterT
  | .param n => .param n
  | .stop => .stop
  | .ptr t => .ptr (same_refl t)
  | .ref t => .ref (same_refl t)
  | .vec t => .vec (same_refl t)
  | .set t => .set (same_refl t)
  | .chan t => .chan (same_refl t)
  | .map k v => .map (same_refl k) (same_refl v)
  | .arr n t => .arr n (same_refl t)
  | .tuple ts => .tuple (sameL_refl ts)
  | .fn fl r ps => .fn fl (same_refl r) (sameL_refl ps)
  | .struct ns ts => .struct ns (sameL_refl ts)
  | .tagged ns ts => .tagged ns (sameL_refl ts)
  | .iface n a => .iface n (sameL_refl a)
  | .union f ts => .union f f (among_refl ts ts fun _ h => h) (amongR_refl ts ts fun _ h => h)
  | .named n a b =>
    if h : b.lists = true then .openB n n a a h h (same_refl b)
    else .named n b b (by simp [h]) (sameL_refl a)

theorem sameL_refl : ∀ ts : List Ty, SameL ts ts
  | [] => .nil
  | t :: ts => .cons (same_refl t) (sameL_refl ts)

theorem among_refl : ∀ ts us : List Ty, (∀ t ∈ ts, t ∈ us) → Among us ts
  | [], us, _ => .nil us
  | t :: ts, us, h =>
    .cons (h t (by simp)) (same_refl t) (among_refl ts us fun x hx => h x (by simp [hx]))

theorem amongR_refl : ∀ ts us : List Ty, (∀ t ∈ ts, t ∈ us) → AmongR us ts
  | [], us, _ => .nil us
  | t :: ts, us, h =>
    .cons (h t (by simp)) (same_refl t) (amongR_refl ts us fun x hx => h x (by simp [hx]))
end

end Nature.Types

import Verif.Ranges.Lemmas
namespace Nature.Ranges

theorem covers_cons (x : Range) (xs : List Range) (p : Int) :
    Covers (x :: xs) p ↔ (x.lo ≤ p ∧ p < x.hi) ∨ Covers xs p := by
  simp [Covers]

theorem covers_ge {x xs} (h : Sorted (x :: xs)) {p : Int} (hp : Covers (x :: xs) p) : x.lo ≤ p := by
  obtain ⟨r, hr, hp⟩ := hp
  rcases List.mem_cons.1 hr with rfl | hr
  · exact hp.1
  · have := h.lt r hr; have := h.le; omega

theorem covers_tail_gt {x xs} (h : Sorted (x :: xs)) {p : Int} (hp : Covers xs p) : x.hi < p := by
  obtain ⟨r, hr, hp⟩ := hp
  have := h.lt r hr; omega

theorem Least.congr {P Q : Int → Prop} {p : Int} (h : ∀ q, P q ↔ Q q) (hp : Least P p) :
    Least Q p := ⟨(h p).1 hp.1, fun q hq => hp.2 q ((h q).2 hq)⟩

theorem seek_common {cff clt sfc : Int} {cs ss : List Range} (hcs : Sorted cs) (hss : Sorted ss)
    (hcn : NonEmpty cs) (hsn : NonEmpty ss) (hclt : ∀ c ∈ cs, c.hi ≤ clt)
    (hex : ∃ p, Covers cs p ∧ Covers ss p) :
    ∃ p, seek cff clt sfc cs ss = .adjust p ∧ Least (fun q => Covers cs q ∧ Covers ss q) p := by
  generalize hn : cs.length + ss.length = n
  induction n using Nat.strongRecOn generalizing cs ss sfc with
  | ind n ih =>
    cases cs with
    | nil => obtain ⟨p, ⟨r, hr, _⟩, _⟩ := hex; cases hr
    | cons c cs =>
      cases ss with
      | nil => obtain ⟨p, _, ⟨r, hr, _⟩⟩ := hex; cases hr
      | cons s ss =>
        rw [seek]
        generalize (if sfc = -1 ∧ s.lo > cff then s.lo else sfc) = sfc'
        have hc := hcn c (List.mem_cons_self ..)
        have hs := hsn s (List.mem_cons_self ..)
        by_cases h1 : c.lo < s.hi ∧ s.lo < c.hi
        · rw [if_pos h1]
          refine ⟨_, rfl, ?_⟩
          by_cases h2 : c.lo > s.lo
          · rw [if_pos h2]
            exact ⟨⟨⟨c, List.mem_cons_self .., by omega, by omega⟩,
              ⟨s, List.mem_cons_self .., by omega, by omega⟩⟩, fun q hq => covers_ge hcs hq.1⟩
          · rw [if_neg h2]
            exact ⟨⟨⟨c, List.mem_cons_self .., by omega, by omega⟩,
              ⟨s, List.mem_cons_self .., by omega, by omega⟩⟩, fun q hq => covers_ge hss hq.2⟩
        · rw [if_neg h1]
          have hlt : s.lo < clt := by
            obtain ⟨p, ⟨r, hr, hp⟩, hp'⟩ := hex
            have := covers_ge hss hp'
            have := hclt r hr
            omega
          rw [if_neg (by omega), if_neg (by omega), if_neg (by omega)]
          by_cases h2 : c.hi ≤ s.lo
          · rw [if_pos h2]
            have heq : ∀ q, (Covers cs q ∧ Covers (s :: ss) q) ↔
                (Covers (c :: cs) q ∧ Covers (s :: ss) q) := by
              intro q
              constructor
              · rintro ⟨a, b⟩; exact ⟨(covers_cons ..).2 (.inr a), b⟩
              · rintro ⟨a, b⟩
                have := covers_ge hss b
                rcases (covers_cons ..).1 a with a | a
                · omega
                · exact ⟨a, b⟩
            obtain ⟨p, hp⟩ := hex
            obtain ⟨q, e, hl⟩ := ih _ (by simp only [List.length_cons] at hn ⊢; omega)
              (sfc := sfc') hcs.tail hss (fun r hr => hcn r (List.mem_cons_of_mem _ hr)) hsn
              (fun r hr => hclt r (List.mem_cons_of_mem _ hr)) ⟨p, (heq p).2 hp⟩ rfl
            exact ⟨q, e, hl.congr heq⟩
          · rw [if_neg h2]
            have heq : ∀ q, (Covers (c :: cs) q ∧ Covers ss q) ↔
                (Covers (c :: cs) q ∧ Covers (s :: ss) q) := by
              intro q
              constructor
              · rintro ⟨a, b⟩; exact ⟨a, (covers_cons ..).2 (.inr b)⟩
              · rintro ⟨a, b⟩
                have := covers_ge hcs a
                rcases (covers_cons ..).1 b with b | b
                · omega
                · exact ⟨a, b⟩
            obtain ⟨p, hp⟩ := hex
            obtain ⟨q, e, hl⟩ := ih _ (by simp only [List.length_cons] at hn ⊢; omega)
              (sfc := sfc') hcs hss.tail hcn (fun r hr => hsn r (List.mem_cons_of_mem _ hr))
              hclt ⟨p, (heq p).2 hp⟩ rfl
            exact ⟨q, e, hl.congr heq⟩

theorem seek_after {cff clt sfc : Int} {cs ss : List Range} (hcs : Sorted cs) (hss : Sorted ss)
    (hsn : NonEmpty ss) (hclt : ∀ c ∈ cs, c.lo < c.hi ∧ c.hi ≤ clt)
    (hne : cs ≠ []) (hlast : ∀ c, cs.getLast? = some c → c.hi = clt)
    (hno : ¬ ∃ p, Covers cs p ∧ Covers ss p) (hex : ∃ p, Covers ss p ∧ clt < p) :
    ∃ p, (seek cff clt sfc cs ss = .adjust p ∨ seek cff clt sfc cs ss = .direct p) ∧
      Least (fun q => Covers ss q ∧ clt < q) p := by
  generalize hn : cs.length + ss.length = n
  induction n using Nat.strongRecOn generalizing cs ss sfc with
  | ind n ih =>
    cases cs with
    | nil => exact absurd rfl hne
    | cons c cs =>
      cases ss with
      | nil => obtain ⟨p, ⟨r, hr, _⟩, _⟩ := hex; cases hr
      | cons s ss =>
        rw [seek]
        generalize (if sfc = -1 ∧ s.lo > cff then s.lo else sfc) = sfc'
        have hc := hclt c (List.mem_cons_self ..)
        have hs := hsn s (List.mem_cons_self ..)
        have h1 : ¬ (c.lo < s.hi ∧ s.lo < c.hi) := by
          intro h1
          apply hno
          by_cases h2 : c.lo > s.lo
          · exact ⟨c.lo, ⟨c, List.mem_cons_self .., by omega, by omega⟩,
              ⟨s, List.mem_cons_self .., by omega, by omega⟩⟩
          · exact ⟨s.lo, ⟨c, List.mem_cons_self .., by omega, by omega⟩,
              ⟨s, List.mem_cons_self .., by omega, by omega⟩⟩
        rw [if_neg h1]
        by_cases h2 : s.lo > clt
        · rw [if_pos h2]
          exact ⟨_, .inl rfl, ⟨⟨s, List.mem_cons_self .., by omega, by omega⟩, h2⟩,
            fun q hq => covers_ge hss hq.1⟩
        · rw [if_neg h2]
          by_cases h3 : s.lo = clt ∧ s.hi > s.lo + 1
          · rw [if_pos h3]
            exact ⟨_, .inl rfl, ⟨⟨s, List.mem_cons_self .., by omega, by omega⟩, by omega⟩,
              fun q hq => by have := hq.2; omega⟩
          · rw [if_neg h3]
            by_cases h4 : s.lo = clt ∧ ss ≠ []
            · rw [if_pos h4]
              cases ss with
              | nil => exact absurd rfl h4.2
              | cons t ts =>
                have ht := hss.2.1
                rw [nextStart, if_pos (by omega)]
                refine ⟨_, .inr rfl, ⟨⟨t, by simp, by omega, hsn t (by simp)⟩, by omega⟩, ?_⟩
                rintro q ⟨hq, hq'⟩
                rcases (covers_cons ..).1 hq with hq | hq
                · omega
                · exact covers_ge hss.tail hq
            · rw [if_neg h4]
              by_cases h5 : c.hi ≤ s.lo
              · rw [if_pos h5]
                have hcs0 : cs ≠ [] := by
                  rintro rfl
                  have := hlast c rfl
                  obtain ⟨p, hp, hp'⟩ := hex
                  have h6 : ss = [] := by
                    by_cases h7 : ss = []
                    · exact h7
                    · exact absurd ⟨by omega, h7⟩ h4
                  subst h6
                  rcases (covers_cons ..).1 hp with hp | ⟨r, hr, _⟩
                  · omega
                  · cases hr
                exact ih _ (by simp only [List.length_cons] at hn ⊢; omega)
                  (sfc := sfc') hcs.tail hss hsn
                  (fun r hr => hclt r (List.mem_cons_of_mem _ hr)) hcs0
                  (by
                    intro x hx
                    apply hlast
                    cases cs with
                    | nil => exact absurd rfl hcs0
                    | cons y ys => rw [List.getLast?_cons_cons]; exact hx)
                  (fun ⟨p, a, b⟩ => hno ⟨p, (covers_cons ..).2 (.inr a), b⟩) hex rfl
              · rw [if_neg h5]
                have heq : ∀ q, (Covers ss q ∧ clt < q) ↔ (Covers (s :: ss) q ∧ clt < q) := by
                  intro q
                  rw [covers_cons]
                  constructor
                  · rintro ⟨a, b⟩; exact ⟨.inr a, b⟩
                  · rintro ⟨a | a, b⟩
                    · omega
                    · exact ⟨a, b⟩
                obtain ⟨p, hp⟩ := hex
                obtain ⟨q, e, hl⟩ := ih _ (by simp only [List.length_cons] at hn ⊢; omega)
                  (sfc := sfc') hcs hss.tail (fun r hr => hsn r (List.mem_cons_of_mem _ hr))
                  hclt hne hlast
                  (fun ⟨p, a, b⟩ => hno ⟨p, a, (covers_cons ..).2 (.inr b)⟩)
                  ⟨p, (heq p).2 hp⟩ rfl
                exact ⟨q, e, hl.congr heq⟩

theorem seek_first {cff clt sfc : Int} {cs ss : List Range} (hcff : 0 ≤ cff) (hcs : Sorted cs)
    (hss : Sorted ss)
    (hsn : NonEmpty ss) (hclt : ∀ c ∈ cs, cff ≤ c.lo ∧ c.lo < c.hi ∧ c.hi ≤ clt)
    (hne : cs ≠ [] ∨ sfc ≠ -1) (hcov : ¬ Covers ss cff)
    (hno : ¬ ∃ p, Covers cs p ∧ Covers ss p) (hnex : ¬ ∃ p, Covers ss p ∧ clt < p) :
    (sfc ≠ -1 → seek cff clt sfc cs ss = .adjust sfc) ∧
    (sfc = -1 → (∃ p, Covers ss p ∧ cff < p) → ∃ p, seek cff clt sfc cs ss = .adjust p ∧
      Least (fun q => Covers ss q ∧ cff < q) p) := by
  generalize hn : cs.length + ss.length = n
  induction n using Nat.strongRecOn generalizing cs ss sfc with
  | ind n ih =>
    cases cs with
    | nil =>
      have : sfc ≠ -1 := hne.resolve_left (fun h => h rfl)
      rw [seek]
      · exact ⟨fun h => by rw [if_pos h], fun h => absurd h this⟩
      · intro _ _ _ _ h; cases h
    | cons c cs =>
      cases ss with
      | nil =>
        rw [seek]
        · exact ⟨fun h => by rw [if_pos h], fun _ ⟨p, ⟨r, hr, _⟩, _⟩ => by cases hr⟩
        · intro _ _ _ _ _ h; cases h
      | cons s ss =>
        rw [seek]
        have hc := hclt c (List.mem_cons_self ..)
        have hs := hsn s (List.mem_cons_self ..)
        have h1 : ¬ (c.lo < s.hi ∧ s.lo < c.hi) := by
          intro h1
          apply hno
          by_cases h2 : c.lo > s.lo
          · exact ⟨c.lo, ⟨c, List.mem_cons_self .., by omega, by omega⟩,
              ⟨s, List.mem_cons_self .., by omega, by omega⟩⟩
          · exact ⟨s.lo, ⟨c, List.mem_cons_self .., by omega, by omega⟩,
              ⟨s, List.mem_cons_self .., by omega, by omega⟩⟩
        have h2 : ¬ s.lo > clt := fun h =>
          hnex ⟨s.lo, ⟨s, List.mem_cons_self .., by omega, by omega⟩, h⟩
        have h3 : ¬ (s.lo = clt ∧ s.hi > s.lo + 1) := fun h =>
          hnex ⟨s.lo + 1, ⟨s, List.mem_cons_self .., by omega, by omega⟩, by omega⟩
        have h4 : ¬ (s.lo = clt ∧ ss ≠ []) := by
          rintro ⟨h, h'⟩
          cases ss with
          | nil => exact h' rfl
          | cons t ts =>
            have := hss.2.1
            exact hnex ⟨t.lo, ⟨t, by simp, by omega, hsn t (by simp)⟩, by omega⟩
        rw [if_neg h1, if_neg h2, if_neg h3, if_neg h4]
        -- what `select_first_cover` becomes
        have key : ∀ (cs' ss' : List Range), cs'.length + ss'.length < n → Sorted cs' → Sorted ss' →
            NonEmpty ss' → (∀ c ∈ cs', cff ≤ c.lo ∧ c.lo < c.hi ∧ c.hi ≤ clt) →
            (∀ p, Covers ss' p → Covers (s :: ss) p) → (∀ p, Covers cs' p → Covers (c :: cs) p) →
            (cs' ≠ [] ∨ s.lo > cff) →
            (s.lo ≤ cff → ∀ p, cff < p → Covers (s :: ss) p → Covers ss' p) →
            (sfc ≠ -1 → seek cff clt (if sfc = -1 ∧ s.lo > cff then s.lo else sfc) cs' ss' =
              .adjust sfc) ∧
            (sfc = -1 → (∃ p, Covers (s :: ss) p ∧ cff < p) →
              ∃ p, seek cff clt (if sfc = -1 ∧ s.lo > cff then s.lo else sfc) cs' ss' = .adjust p ∧
              Least (fun q => Covers (s :: ss) q ∧ cff < q) p) := by
          intro cs' ss' hlen a1 a2 a3 a4 a5 a6 a7 a8
          have b1 : ¬ Covers ss' cff := fun h => hcov (a5 _ h)
          have b2 : ¬ ∃ p, Covers cs' p ∧ Covers ss' p := fun ⟨p, x, y⟩ => hno ⟨p, a6 _ x, a5 _ y⟩
          have b3 : ¬ ∃ p, Covers ss' p ∧ clt < p := fun ⟨p, x, y⟩ => hnex ⟨p, a5 _ x, y⟩
          constructor
          · intro hsf
            rw [if_neg (fun h => hsf h.1)]
            exact (ih _ hlen a1 a2 a3 a4 (.inr hsf) b1 b2 b3 rfl).1 hsf
          · intro hsf hex
            by_cases h5 : s.lo > cff
            · rw [if_pos ⟨hsf, h5⟩]
              have h6 : s.lo ≠ -1 := by omega
              exact ⟨_, (ih _ hlen a1 a2 a3 a4 (.inr h6) b1 b2 b3 rfl).1 h6,
                ⟨⟨s, List.mem_cons_self .., by omega, by omega⟩, h5⟩,
                fun q hq => covers_ge hss hq.1⟩
            · rw [if_neg (fun h => h5 h.2)]
              obtain ⟨p, hp, hp'⟩ := hex
              obtain ⟨q, e, hl⟩ := (ih _ hlen a1 a2 a3 a4 (.inl (a7.resolve_right h5)) b1 b2 b3
                rfl).2 hsf ⟨p, a8 (by omega) p hp' hp, hp'⟩
              refine ⟨q, e, hl.congr fun x => ?_⟩
              exact ⟨fun ⟨x1, x2⟩ => ⟨a5 _ x1, x2⟩, fun ⟨x1, x2⟩ => ⟨a8 (by omega) x x2 x1, x2⟩⟩
        by_cases h5 : c.hi ≤ s.lo
        · rw [if_pos h5]
          exact key cs (s :: ss) (by simp only [List.length_cons] at hn ⊢; omega) hcs.tail hss hsn
            (fun r hr => hclt r (List.mem_cons_of_mem _ hr)) (fun _ h => h)
            (fun p h => (covers_cons ..).2 (.inr h)) (.inr (by omega)) (fun _ p _ h => h)
        · rw [if_neg h5]
          refine key (c :: cs) ss (by simp only [List.length_cons] at hn ⊢; omega) hcs hss.tail
            (fun r hr => hsn r (List.mem_cons_of_mem _ hr)) hclt
            (fun p h => (covers_cons ..).2 (.inr h)) (fun _ h => h) (.inl (by simp)) ?_
          intro hlo p hp h
          rcases (covers_cons ..).1 h with h | h
          · exact absurd ⟨s, List.mem_cons_self .., hlo, by omega⟩ hcov
          · exact h

end Nature.Ranges

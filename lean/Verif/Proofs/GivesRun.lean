import Verif.Proofs.Gives
/-
The values a grammar computes are those the parser computes: all rules together.
-/
namespace Abu

/-- What is said of the parser. -/
def Solo (env : Env) (p : Pat) (ty : Ty) (u : Val) (log : List LogEntry) (t : List Ch) :
    Option (Val × List Ch) → List LogEntry → Prop
  | some (v, rest), log' => Alone env p ty u log t .SUCCESS v log' rest
  | none, log' => ∃ v rest, Alone env p ty u log t .FAILURE v log' rest

def SoloNil (env : Env) (p : Pat) (log : List LogEntry) (t : List Ch) :
    Option (List Ch) → List LogEntry → Prop
  | some rest, log' => AloneNil env p log t .SUCCESS log' rest
  | none, log' => ∃ rest, AloneNil env p log t .FAILURE log' rest

def SoloArg (env : Env) (p : Pat) (ty : Ty) (log : List LogEntry) (t : List Ch) :
    Option (Val × List Ch) → List LogEntry → Prop
  | some (v, rest), log' => Landing env p ty log t .SUCCESS v log' rest
  | none, log' => ∃ v rest, Landing env p ty log t .FAILURE v log' rest

def SoloEach (env : Env) (ps : List Pat) (ts : List Ty) (vs : List Val) (log : List LogEntry)
    (t : List Ch) : Option (List Val × List Ch) → List LogEntry → Prop
  | some (ws, rest), log' => EachAlone env ps ts vs log t .SUCCESS ws log' rest
  | none, log' => ∃ ws rest, EachAlone env ps ts vs log t .FAILURE ws log' rest

def SoloInto (env : Env) (ty : Ty) (ps : List Pat) (u : Val) (log : List LogEntry)
    (t : List Ch) : Option (Val × List Ch) → List LogEntry → Prop
  | some (v, rest), log' => EachInto env ty ps u log t .SUCCESS v log' rest
  | none, log' => ∃ v rest, EachInto env ty ps u log t .FAILURE v log' rest

theorem quiets_mem : ∀ {l : List Pat}, Pat.quiets l = true → ∀ p ∈ l, p.quiet = true
  | [], _, p, h => by cases h
  | x :: l, h, p, hp => by
    simp only [Pat.quiets, Bool.and_eq_true] at h
    rcases List.mem_cons.1 hp with rfl | hp
    · exact h.1
    · exact quiets_mem h.2 p hp

section
variable {env : Env} {els elf : Stale}

theorem Solo.map {p q : Pat} {ty : Ty} {u : Val} {log : List LogEntry} {t : List Ch} {o log'}
    (h : Solo env p ty u log t o log')
    (hf : ∀ {r v rest}, Alone env p ty u log t r v log' rest → Alone env q ty u log t r v log' rest) :
    Solo env q ty u log t o log' := by
  cases o with
  | none => obtain ⟨v, rest, h⟩ := h; exact ⟨v, rest, hf h⟩
  | some x => exact hf h

theorem Solo.map' {p q : Pat} {ty : Ty} {u : Val} {log log1 : List LogEntry} {t : List Ch} {o log'}
    (h : Solo env p ty u log1 t o log')
    (hf : ∀ {r v rest}, Alone env p ty u log1 t r v log' rest → Alone env q ty u log t r v log' rest) :
    Solo env q ty u log t o log' := by
  cases o with
  | none => obtain ⟨v, rest, h⟩ := h; exact ⟨v, rest, hf h⟩
  | some x => exact hf h

theorem SoloNil.map {p q : Pat} {log : List LogEntry} {t : List Ch} {o log'}
    (h : SoloNil env p log t o log')
    (hf : ∀ {r rest}, AloneNil env p log t r log' rest → AloneNil env q log t r log' rest) :
    SoloNil env q log t o log' := by
  cases o with
  | none => obtain ⟨rest, h⟩ := h; exact ⟨rest, hf h⟩
  | some x => exact hf h

theorem loose_rep {mn mx : Nat} {p : Pat} (hp : (Pat.rep mn mx p).Loose els elf) : p.Loose els elf := by
  simp only [Pat.Loose, Pat.tidy] at hp
  exact loose hp

theorem loose_not {p : Pat} (hp : (Pat.not p).Loose els elf) : p.Loose els elf := by
  simp only [Pat.Loose, Pat.tidy] at hp
  exact loose hp

theorem tidy_alt_all {ps : List Pat} (hp : (Pat.alt ps).Loose els elf) :
    ∀ p ∈ ps, p.tidy false els elf true .any .any = true := by
  have hp' : Pat.tidyAlt false els elf .any .any ps = true := by
    simp only [Pat.Loose, Pat.tidy, Bool.and_eq_true] at hp
    exact hp.2
  exact tidyAlt_mem hp'

variable (he : env.quiet) (henv : env.tidy false els elf)
include he henv

mutual
theorem Gives.solo {p ty u log t o log'} (h : Gives env p ty u log t o log') (hq : p.quiet = true)
    (hp : p.Loose els elf) : Solo env p ty u log t o log' := by
  match h, hq, hp with
  | .char h1 h2, hq, hp => exact Alone.char h1 h2
  | .charNo h1, hq, hp => exact ⟨_, _, Alone.char_no h1⟩
  | .symbol h1 h2 h3 h4, hq, hp => exact Alone.symbol h1 h2 h3 h4
  | .symbolNo h1, hq, hp => exact ⟨_, Alone.symbol_no h1⟩
  | .uint h1 h2 h3 h4 h5, hq, hp =>
    exact ⟨_, C10_uint_success env _ _ _ h1 h2 _ _ _ h3 h4 _ scalar_num _ _ (stores_num h5), rfl, rfl⟩
  | .uintNo h1 h2 h3 h4 h5, hq, hp =>
    exact ⟨_, _, _, C10_uint_failure env _ _ _ h1 h2 (by simpa [Pat.Loose, Pat.tidy] using hp) _ _ _ h3 h4 _
      scalar_num _ _ (stores_num h5), rfl, rfl⟩
  | .int h1 h2 h3 h4 h5 h6 h7 h8, hq, hp =>
    exact ⟨_, C11_int_success env _ _ _ h1 h2 _ _ h3 _ _ _ h4 h5 h6 _ scalar_num _ _ _ (stores_num h7)
      (stores_num h8), rfl, rfl⟩
  | .intNo h1 h2 h3 h4 h5 h6 h7 h8, hq, hp =>
    exact ⟨_, _, _, C11_int_failure env _ _ _ h1 h2 (by simpa [Pat.Loose, Pat.tidy] using hp) _ _ h3 _ _ _ h4 h5 h6
      _ scalar_num _ _ _ (stores_num h7) (stores_num h8), rfl, rfl⟩
  | .wordless h1 h2, hq, hp =>
    obtain ⟨r, rest, h3, h4⟩ := Alone.wordless h1 h2
    cases h4
    exact h3
  | .wordlessNo h1 h2, hq, hp =>
    obtain ⟨r, rest, h3, h4⟩ := Alone.wordless h1 h2
    cases h4
    exact ⟨_, _, h3⟩
  | .discard hA, hq, hp => exact Alone.discard (GivesNil.solo hA hq hp) hq he
  | .discardNo hB, hq, hp =>
    obtain ⟨rest, h2⟩ := GivesNil.solo hB hq hp
    exact ⟨_, _, Alone.discard h2 hq he⟩
  | .seq h1 h2 h3, hq, hp => exact Alone.seq he (GivesEach.solo h3 hq (loose_seq (band_right hp))) h1 hq h2
  | .seqNo h1 h2 h3, hq, hp =>
    obtain ⟨ws, rest, h4⟩ := GivesEach.solo h3 hq (loose_seq (band_right hp))
    exact ⟨_, _, Alone.seq he h4 h1 hq h2⟩
  | .seqInto h1 h2 h3, hq, hp => exact Alone.seqInto he (GivesInto.solo h3 hq (loose_seq (band_right hp))) h1 hq h2
  | .seqIntoNo h1 h2 h3, hq, hp =>
    obtain ⟨ws, rest, h4⟩ := GivesInto.solo h3 hq (loose_seq (band_right hp))
    exact ⟨_, _, Alone.seqInto he h4 h1 hq h2⟩
  | @Gives.alt _ ps q qs ty u log t log1 o log' h1 h2 h3 h4, hq, hp =>
    have hqs := quiets_mem (l := ps ++ q :: qs) hq
    have hps := tidy_alt_all hp
    have h5 := GivesNone.solo h2 (fun p hm => hqs p (by simp [hm])) (fun p hm => loose (hps p (by simp [hm])))
    have h6 := Gives.solo h4 (hqs q (by simp)) (loose (hps q (by simp)))
    cases o with
    | none => exact absurd rfl h3
    | some x =>
      obtain ⟨v, rest⟩ := x
      have hk : ∀ p ∈ ps ++ [q], p.unskipped = true := fun p hm =>
        tidy_plain_unskipped p (hps p (by
          rcases List.mem_append.1 hm with hm | hm
          · simp [hm]
          · simp at hm; simp [hm]))
      have hf : ∃ u1, FailInTurn env ty t ps u log u1 log1 := by
        rcases h1 with h1 | ⟨h1, hty⟩
        · exact ⟨_, h5.traceless he (fun p hm => hqs p (by simp [hm])) h1⟩
        · exact h5.assigns he (fun p hm => hqs p (by simp [hm])) (fun p hm => h1 p (by simp [hm])) hty u
      obtain ⟨u1, hf⟩ := hf
      exact C35_failed_alternatives_leave_no_trace_partial env els elf ps qs q ty u u1 v log log1 log' t rest
        he henv hp hq hk (h1.imp id fun h => ⟨h.1 q (by simp), h.2⟩) hf h6
  | .altNo h0 h1 h2, hq, hp =>
    have hqs := quiets_mem hq
    have hps := tidy_alt_all hp
    have h5 := GivesNone.solo h2 (fun p hm => hqs p hm) (fun p hm => loose (hps p hm))
    rcases h1 with h1 | ⟨h1, hty⟩
    · exact ⟨_, (h5.traceless he hqs h1).alone h0 he hqs henv hps⟩
    · obtain ⟨u1, hf⟩ := h5.assigns he hqs h1 hty _
      exact ⟨_, hf.alone h0 he hqs henv hps⟩
  | .repMax h1 h2 h3 h4 h5 h6 h7, hq, hp =>
    have hl := loose_rep hp
    exact C31_repeat_exact_partial env els elf _ _ _ _ _ _ _ _ _ _ _ he henv hp hq h1
      (tidy_plain_unskipped _ hl) h2 h3 (.inr h4) (by omega) (GivesMany.solo h6 hq hl) (.max h5 h7)
  | .rep h1 h2 h3 h4 h5 h6 h7 h8, hq, hp =>
    have hl := loose_rep hp
    obtain ⟨w, rest', h9⟩ := Gives.solo h8 hq hl
    exact C31_repeat_exact_partial env els elf _ _ _ _ _ _ _ _ _ _ _ he henv hp hq h1
      (tidy_plain_unskipped _ hl) h2 h3 h4 h6 (GivesMany.solo h5 hq hl) (.fails h7 h9)
  | @Gives.repNo _ p mn mx ty us vs log t log1 rest log' h1 h2 h3 h4 h5 h6 h8, hq, hp =>
    have hl := loose_rep hp
    obtain ⟨w, rest', h9⟩ := Gives.solo h8 hq hl
    obtain ⟨rest, h10⟩ := C31_repeat_appends_partial env p ty mn mx us vs log log1 log' t rest he hq h1
      (tidy_plain_unskipped _ hl) h2 h3 h4 (GivesMany.solo h5 hq hl) (.fails (by omega) h9)
    rw [reach, if_neg (by omega)] at h10
    exact ⟨_, _, h10⟩
  | @Gives.listNil _ op sep ty us log t log' h1 h2 h3 h4, hq, hp =>
    have hl := loose (band_left hp)
    have hq' := band_left hq
    obtain ⟨w, rest', h9⟩ := Gives.solo h4 hq' hl
    obtain ⟨rest, h10⟩ := C31_list_empty_partial env op sep ty us w log log' t rest' he hq' h1
      (tidy_plain_unskipped _ hl) h2 h3 h9
    have hr := h10.rest_eq (C19_list_empty_partial env els elf henv op sep t hp (h9.recognises .no))
    rw [hr] at h10
    exact h10
  | .listSep h1 h2 h3 h4 h5 h6 h7, hq, hp =>
    have hl := loose (band_left hp)
    have hls := loose (band_right hp)
    have hq' := band_left hq
    have hqs := band_right hq
    obtain ⟨rest', h9⟩ := GivesNil.solo h7 hqs hls
    exact C31_list_exact_partial env els elf _ _ _ _ _ _ _ _ _ _ _ _ _ he henv hp hq' hqs h1
      (tidy_plain_unskipped _ hl) h2 h3 (Gives.solo h4 hq' hl) h5 (GivesSep.solo h6 hq' hqs hl hls) (.sep h9)
  | .listItem h1 h2 h3 h4 h5 h6 h7 h8, hq, hp =>
    have hl := loose (band_left hp)
    have hls := loose (band_right hp)
    have hq' := band_left hq
    have hqs := band_right hq
    obtain ⟨w, rest', h9⟩ := Gives.solo h8 hq' hl
    exact C31_list_exact_partial env els elf _ _ _ _ _ _ _ _ _ _ _ _ _ he henv hp hq' hqs h1
      (tidy_plain_unskipped _ hl) h2 h3 (Gives.solo h4 hq' hl) h5 (GivesSep.solo h6 hq' hqs hl hls)
      (.item (GivesNil.solo h7 hqs hls) h9)
  | .optItem h1 h2 h3 h4 h5, hq, hp =>
    have hl := loose (band_right hp)
    exact Alone.opt_item (Gives.solo h4 hq hl) h5 h1 (tidy_plain_unskipped _ hl) hq he h2 h3
  | .optItemNo h1 h2 h3 h4, hq, hp =>
    have hl := loose (band_right hp)
    obtain ⟨w, rest', h9⟩ := Gives.solo h4 hq hl
    exact Alone.opt_item_no h9 h1 (tidy_plain_unskipped _ hl) hq he h2 h3 henv hp
  | .opt h1 h2 h3 h4 h5, hq, hp => exact Alone.opt_value h1 (Gives.solo h4 hq (loose (band_right hp))) h5 hq he h2 h3
  | .optNo h1 h2 h3 h4, hq, hp =>
    obtain ⟨w, rest', h9⟩ := Gives.solo h4 hq (loose (band_right hp))
    exact Alone.opt_value_no h1 h9 hq he h2 h3 henv hp
  | .not h1 h2, hq, hp =>
    obtain ⟨w, rest', h9⟩ := Gives.solo h2 hq (loose_not hp)
    exact Alone.not_fail h9 hq he h1 henv hp
  | .notNo h2, hq, hp =>
    exact ⟨_, Alone.not_succ (Gives.solo h2 hq (loose_not hp)) hq he⟩
  | .except h1 h2, hq, hp =>
    have hl := loose (band_left hp)
    have hls := band_right hp
    have hq' := band_left hq
    have hqs := band_right hq
    obtain ⟨rest', h9⟩ := GivesNil.solo h1 hqs (loose hls)
    exact (Gives.solo h2 hq' hl).map' fun h => Alone.except_op h9 h hqs hq' he henv hls
  | .exceptNo h1, hq, hp =>
    have hqs := band_right hq
    have hls := loose (band_right hp)
    exact ⟨_, Alone.except_neg (GivesNil.solo h1 hqs hls) hqs he (tidy_plain_unskipped _ hls)⟩
  | .lexeme h1, hq, hp => exact (Gives.solo h1 hq (loose (band_right hp))).map fun h => h.lexeme hq he
  | .bindDst h1, hq, hp => exact (Gives.solo h1 hq hp).map fun h => h.bindDst hq he
  | .recur h1 h2, hq, hp => exact (Gives.solo h2 (he _ _ h1) (loose (henv _ _ h1))).map fun h => Alone.recur h1 h he henv
  | .construct h1 h2, hq, hp => exact Alone.constr_value (Gives.solo h1 hq hp) hq he h2
  | .constructNo h1, hq, hp =>
    obtain ⟨w, rest', h9⟩ := Gives.solo h1 hq hp
    exact ⟨_, _, Alone.constr_fail h9 hq he⟩
  | .action h1 h2 h3 h4 h5, hq, hp =>
    have hq' := band_right hq
    exact Alone.action_value (GivesArg.solo h3 hq' hp) hq' he h4 h1 h2 h5
  | .actionVoid h1 h2 h3 h4, hq, hp =>
    have hq' := band_right hq
    exact Alone.action_void (GivesArg.solo h3 hq' hp) hq' he h4 h1 h2
  | .actionNo h3, hq, hp =>
    have hq' := band_right hq
    obtain ⟨w, rest', h9⟩ := GivesArg.solo h3 hq' hp
    exact ⟨_, _, Alone.action_fail h9 hq' he⟩
theorem GivesNil.solo {p log t o log'} (h : GivesNil env p log t o log') (hq : p.quiet = true)
    (hp : p.Loose els elf) : SoloNil env p log t o log' := by
  match h, hq, hp with
  | .bare h1 h2, hq, hp =>
    obtain ⟨r, rest, h3, h4⟩ := AloneNil.bare (log := log) h1 henv hp h2
    cases h4 with
    | ok => exact h3
    | no => exact ⟨_, h3⟩
  | .discard hC, hq, hp => exact (GivesNil.solo hC hq hp).map fun h => h.discard hq he
  | .recur h1 h2, hq, hp => exact (GivesNil.solo h2 (he _ _ h1) (loose (henv _ _ h1))).map fun h => AloneNil.recur h1 h he henv
  | .action h1 h2 h3, hq, hp =>
    have hq' := band_right hq
    exact AloneNil.action (GivesArg.solo h2 hq' hp) hq' he h3 h1
  | .actionNo h2, hq, hp =>
    have hq' := band_right hq
    obtain ⟨w, rest', h9⟩ := GivesArg.solo h2 hq' hp
    exact ⟨_, AloneNil.action_fail h9 hq' he⟩
theorem GivesArg.solo {p ty log t o log'} (h : GivesArg env p ty log t o log') (hq : p.quiet = true)
    (hp : p.Loose els elf) : SoloArg env p ty log t o log' := by
  match h, hq, hp with
  | .nil hD, hq, hp => exact .nil rfl (GivesNil.solo hD hq hp)
  | .nilNo hE, hq, hp =>
    obtain ⟨rest, h2⟩ := GivesNil.solo hE hq hp
    exact ⟨_, _, .nil rfl h2⟩
  | .value h1 h2, hq, hp =>
    have h3 := Gives.solo h2 hq hp
    cases o with
    | none => obtain ⟨v, rest, h3⟩ := h3; exact ⟨_, _, .value h1 h3⟩
    | some x => exact .value h1 h3
theorem GivesEach.solo {ps ts vs log t o log'} (h : GivesEach env ps ts vs log t o log')
    (hq : Pat.quiets ps = true) (hp : ∀ p ∈ ps, p.Loose els elf) : SoloEach env ps ts vs log t o log' := by
  match h, hq, hp with
  | .nil, hq, hp => exact .nil
  | .value h1 h2 h3, hq, hp =>
    exact .value h1 (Gives.solo h2 (band_left hq) (hp _ (by simp)))
      (GivesEach.solo h3 (band_right hq) fun p hm => hp p (by simp [hm]))
  | .valueNo h1 h2, hq, hp =>
    obtain ⟨v, rest, h3⟩ := Gives.solo h2 (band_left hq) (hp _ (by simp))
    exact ⟨_, _, .valueFails h1 h3⟩
  | .laterNo h1 h2 h3, hq, hp =>
    obtain ⟨ws, rest, h4⟩ := GivesEach.solo h3 (band_right hq) fun p hm => hp p (by simp [hm])
    exact ⟨_, _, .value h1 (Gives.solo h2 (band_left hq) (hp _ (by simp))) h4⟩
  | .ignore h1 h2 h3, hq, hp =>
    have h5 := GivesNil.solo h2 (band_left hq) (hp _ (by simp))
    have h4 := GivesEach.solo h3 (band_right hq) fun p hm => hp p (by simp [hm])
    cases o with
    | none => obtain ⟨ws, rest, h4⟩ := h4; exact ⟨_, _, .ignore h1 h5 h4⟩
    | some x => exact .ignore h1 h5 h4
  | .ignoreNo h1 h2, hq, hp =>
    obtain ⟨rest, h3⟩ := GivesNil.solo h2 (band_left hq) (hp _ (by simp))
    exact ⟨_, _, .ignoreFails h1 h3⟩
theorem GivesInto.solo {ty ps u log t o log'} (h : GivesInto env ty ps u log t o log')
    (hq : Pat.quiets ps = true) (hp : ∀ p ∈ ps, p.Loose els elf) : SoloInto env ty ps u log t o log' := by
  match h, hq, hp with
  | .nil, hq, hp => exact .nil
  | .value h1 h2 h3, hq, hp =>
    have h5 := Gives.solo h2 (band_left hq) (hp _ (by simp))
    have h4 := GivesInto.solo h3 (band_right hq) fun p hm => hp p (by simp [hm])
    cases o with
    | none => obtain ⟨ws, rest, h4⟩ := h4; exact ⟨_, _, .value h1 h5 h4⟩
    | some x => exact .value h1 h5 h4
  | .valueNo h1 h2, hq, hp =>
    obtain ⟨v, rest, h3⟩ := Gives.solo h2 (band_left hq) (hp _ (by simp))
    exact ⟨_, _, .valueFails h1 h3⟩
  | .ignore h1 h2 h3, hq, hp =>
    have h5 := GivesNil.solo h2 (band_left hq) (hp _ (by simp))
    have h4 := GivesInto.solo h3 (band_right hq) fun p hm => hp p (by simp [hm])
    cases o with
    | none => obtain ⟨ws, rest, h4⟩ := h4; exact ⟨_, _, .ignore h1 h5 h4⟩
    | some x => exact .ignore h1 h5 h4
  | .ignoreNo h1 h2, hq, hp =>
    obtain ⟨rest, h3⟩ := GivesNil.solo h2 (band_left hq) (hp _ (by simp))
    exact ⟨_, _, .ignoreFails h1 h3⟩
theorem GivesNone.solo {ty u t ps log log'} (h : GivesNone env ty u t ps log log')
    (hq : ∀ p ∈ ps, p.quiet = true) (hp : ∀ p ∈ ps, p.Loose els elf) : AllFail env ty u t ps log log' := by
  match h, hq, hp with
  | .nil, hq, hp => exact .nil
  | .cons h1 h2, hq, hp =>
    obtain ⟨v, rest, h3⟩ := Gives.solo h1 (hq _ (by simp)) (hp _ (by simp))
    exact .cons h3 (GivesNone.solo h2 (fun p hm => hq p (by simp [hm])) fun p hm => hp p (by simp [hm]))
theorem GivesMany.solo {p ty log t vs log' rest} (h : GivesMany env p ty log t vs log' rest)
    (hq : p.quiet = true) (hp : p.Loose els elf) : Matches env p ty log t vs log' rest := by
  match h, hq, hp with
  | .nil, hq, hp => exact .nil
  | .cons h1 h2 h3, hq, hp => exact .cons (Gives.solo h1 hq hp) h2 (GivesMany.solo h3 hq hp)
theorem GivesSep.solo {op sep ty log t vs log' rest} (h : GivesSep env op sep ty log t vs log' rest)
    (hq : op.quiet = true) (hqs : sep.quiet = true) (hp : op.Loose els elf) (hps : sep.Loose els elf) :
    Separated env op sep ty log t vs log' rest := by
  match h, hq, hqs, hp, hps with
  | .nil, hq, hqs, hp, hps => exact .nil
  | .cons h1 h2 h3 h4, hq, hqs, hp, hps =>
    exact .cons (GivesNil.solo h1 hqs hps) (Gives.solo h2 hq hp) h3 (GivesSep.solo h4 hq hqs hp hps)
end

end

end Abu

import Verif.Model.Work

/-!
C84: every measured parser gives, on every input, the result of the parser it measures.
-/

namespace Ical

variable [Uni]

namespace MP
variable (m : Meter) {α β γ : Type}

omit [Uni] in
theorem run_map (f : α → β) (p : MP α) : (map f p).run = Nom.map f p.run := rfl
omit [Uni] in
theorem run_cut (p : MP α) : (cut p).run = Nom.cut p.run := rfl
omit [Uni] in
theorem run_opt (p : MP α) : (opt p).run = Nom.opt p.run := rfl
omit [Uni] in
theorem run_alt (p q : MP α) : (alt m p q).run = Nom.alt p.run q.run := rfl
omit [Uni] in
theorem run_pair (p : MP α) (q : MP β) : (pair m p q).run = Nom.pair p.run q.run := rfl
omit [Uni] in
theorem run_preceded (p : MP α) (q : MP β) : (preceded m p q).run = Nom.preceded p.run q.run := rfl
omit [Uni] in
theorem run_separatedPair (p : MP α) (s : MP γ) (q : MP β) :
    (separatedPair m p s q).run = Nom.separatedPair p.run s.run q.run := rfl
omit [Uni] in
theorem run_tag (t : Str) : (tag m t).run = Nom.tag t := rfl
omit [Uni] in
theorem run_lineEnding : (lineEnding m).run = Nom.lineEnding := rfl
omit [Uni] in
theorem run_multispace0 : (multispace0 m).run = Nom.multispace0 := rfl
omit [Uni] in
theorem run_space0 : (space0 m).run = Nom.space0 := rfl
omit [Uni] in
theorem run_isNot (x : Char) : (isNot m x).run = Nom.isNot x := rfl
theorem run_validKeySequence : (validKeySequence m).run = Ical.validKeySequence := rfl
theorem run_propertyKey : (propertyKey m).run = Ical.propertyKey := rfl
omit [Uni] in
theorem run_lineSeparated (f : MP α) : (lineSeparated m f).run = Ical.lineSeparated f.run := rfl
omit [Uni] in
theorem run_line (pre : Str) (f : MP α) : (line m pre f).run = Ical.line pre f.run := rfl
omit [Uni] in
theorem run_paramValue : (paramValue m).run = Ical.paramValue := rfl
theorem run_pairParameter : (pairParameter m).run = Ical.pairParameter := rfl
theorem run_baseParameter : (baseParameter m).run = Ical.baseParameter := rfl
theorem run_parameter : (parameter m).run = Ical.parameter := rfl
theorem run_parameters : (parameters m).run = Ical.parameters := rfl
omit [Uni] in
theorem run_propertyRest : (propertyRest m).run = Ical.propertyRest := rfl
theorem run_propertyParts : (propertyParts m).run = Ical.propertyParts := by
  simp only [propertyParts, Ical.propertyParts, run_alt, run_separatedPair, run_pair, run_cut, run_preceded, run_tag, run_map,
    run_multispace0, run_propertyKey, run_parameters, run_propertyRest, run_validKeySequence]
theorem run_property : (property m).run = Ical.property := by
  simp only [property, Ical.property, run_cut, run_map, run_pair, run_opt, run_lineEnding, run_propertyParts]
theorem run_componentChild (rec : MP PComp) : (componentChild m rec).run = Ical.componentChild rec.run := by
  simp only [componentChild, Ical.componentChild, run_cut, run_alt, run_map, run_lineSeparated, run_property]
omit [Uni] in
theorem run_componentEnd (name : Str) : (componentEnd m name).run = Ical.componentEnd name := rfl
end MP

/-- **C84.** The parsers whose steps are counted are those of the model, part by part: names, parameters and their
values, the rest of a line, properties, the elements and the last line of a component, and components to any depth. -/
theorem measured_parts (m : Meter) :
    (MP.validKeySequence m).run = validKeySequence ∧ (MP.propertyKey m).run = propertyKey ∧
    (MP.paramValue m).run = paramValue ∧ (MP.pairParameter m).run = pairParameter ∧
    (MP.baseParameter m).run = baseParameter ∧ (MP.parameters m).run = parameters ∧
    (MP.propertyRest m).run = propertyRest ∧ (MP.propertyParts m).run = propertyParts ∧
    (MP.property m).run = property ∧ (∀ rec, (MP.componentChild m rec).run = componentChild rec.run) ∧
    (∀ name, (MP.componentEnd m name).run = componentEnd name) ∧
    (∀ rec, (MP.componentBody m rec).run = componentBody rec.run) ∧ (∀ n, (MP.componentF m n).run = componentF n) ∧
    (MP.component m).run = component ∧ (MP.components m).run = components :=
  ⟨rfl, rfl, MP.run_paramValue m, MP.run_pairParameter m, MP.run_baseParameter m, MP.run_parameters m,
    MP.run_propertyRest m, MP.run_propertyParts m, MP.run_property m, MP.run_componentChild m, MP.run_componentEnd m,
    fun _ => rfl, fun n => by
      induction n with
      | zero => rfl
      | succ n ih => exact congrArg componentBody ih, rfl, rfl⟩

/-- the value `a b` of a parameter is looked at up to the semicolon after it -/
example : (@MP.parameter .steps Uni.ascii).run c!";X=a b;Y=c:" = .ok c!";Y=c:" ⟨c!"X", some c!"a b"⟩ ∧
    (@MP.parameter .steps Uni.ascii).cost c!";X=a b;Y=c:" = 18 ∧
    (MP.paramValue .steps).cost c!"a b;Y=c:" = 9 := by decide +kernel

end Ical

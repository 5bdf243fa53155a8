# DESIGN: a Lean 4 model of TEflow and what is proved about it

## Trusted base

* Lean 4.33.0's kernel.  No `native_decide`, no `bv_decide`, no axioms of our own.
  Theorems depend at most on `propext`, `Classical.choice`, `Quot.sound`.
* The faithfulness of the model: every definition in `lean/Verif/Model/*` cites the file and lines of
  `/repo/src/teflow` it mirrors.  The code is not run here; the tie is by reading.
* Modelling conventions (the same everywhere):
  * **Numbers.**  Python floats are idealised as exact numbers: an arbitrary linearly ordered field `K`
    where only + - * / and comparisons are used (so the model also evaluates on `ℚ`), and `ℝ`
    where `sqrt/exp/log/sin/cos/pow` occur.  Rounding, overflow, inf and signed zero are *not* modelled;
    NaN is modelled (as `none`) only where the code branches on it (data files, from_file filters).
    Decimal constants such as `1E-4` are exact rationals.
  * **Python dict / OrderedDict / AttrDict** = association list in insertion order with distinct keys.
    Iteration over a Python `set` has arbitrary order: modelled by an arbitrary permutation parameter.
  * **Exceptions** are values: `Except PyErr α`; functions that mutate before raising return the
    mutated state together with the error.
  * **Numpy arrays** of rank 1 are lists, tables are lists of columns; broadcasting of scalars is
    written out as a map.  dtype is modelled only where the code depends on it.
  * **Regular expressions**: `Model/Re.lean` is a small backtracking matcher (ordered choice, greedy/lazy
    repetition, classes, look-around, groups) on which the patterns of the code are written out as terms.
  * **External calls** (`scipy.optimize.minimize_scalar`, `curve_fit`, `scipy.integrate.quad`, `lstsq`,
    interpolators of scipy) are parameters; what is assumed of them is a hypothesis of the theorem.
  * Files are lists of lines/characters; printing with `%.4f` etc. is not modelled.
* Python's character classes are modelled for ASCII (`\s`, `\d`, `[A-Z]`): non-ASCII digits and blanks are
  not modelled.

## Layout

* `lean/Verif/Model/<Area>.lean` – the model, function by function.
* `lean/Verif/Spec/<Area>.lean` – small independent specifications where a property needs one.
* `lean/Verif/Lemmas/<Area>.lean` – helper lemmas.
* `lean/Verif/Props/<Area>.lean` – the property theorems (`TEflow.Cxx_…`) with non-vacuity examples.
* `seeded/LOG.jsonl` – mutation tests of the theorems.

## Properties: what is modelled and how it is proved

* **C01** retain keeps exactly the named entries — `retain` on association lists, the set iteration order a permutation parameter. Filter characterisation by induction over the popped keys.
* **C02** retain(match_order=True) orders the result by keys — index map + prefix scan + sort + move_to_end written out; proved that the result is the survivors sorted by last index.
* **C03** retain's error behaviour — `retain` returns (state, result); the exact state in each error branch is computed; the negation of 'no side effect on error' is a witness.
* **C04** ListDict merge/append/extend laws — append/extend/merge with partial mutation on KeyError; equations by induction.
* **C05** ListDict.sum laws — sum as nested fold over an additive commutative monoid; permutation invariance.
* **C06** parse_list tokenises exactly — re.split + filter on character lists; spec = maximal runs; round trip by induction.
* **C07** parse_seq range expansion — while loop with an explicit termination argument over an Archimedean ordered field; closed form of the list.
* **C08** parse_seq text splitting — regex split with look-around written as a scanner; theorems on joins of items.
* **C09** pmatch finds the first section with the given prefix — scan over the section list; first-match characterisation.
* **C10** ExecWrapper passes the latest values — state machine init/update/execute; refinement to 'last write wins' map for all histories.
* **C11** ExecWrapper failure and isolation — execute's error branches as values; state unchanged.
* **C12** get_root_logger never duplicates handlers — registry state machine; invariant over all histories.
* **C13** Compound text round trip — matcher for the regex + to_string styles; round trip over the character level grammar.
* **C14** Compound.from_string on arbitrary text — fold over the matches; characterised by first occurrence/last value.
* **C15** Compound.replace — popitem loop; position and error theorems.
* **C16** natom rounding — ordered field with floor; inequality.
* **C17** weight_ave is an average — weighted mean bounds over an ordered field.
* **C18** Alloy stoichiometry — from_compounds/all_sites over an ordered field; totals.
* **C19** C, R, N and U stay mutually consistent — getC/R/N/U precedence; consistency by case analysis.
* **C20** get/[]/gget precedence and errors — get/[]/gget as Except; decision table theorem.
* **C21** TEdataset2 links each property to its temperature — constructor loop with running temperature index; invariant.
* **C22** parse_group — findall matcher; round trip.
* **C23** parse_datafile gives a rectangular table — line matcher, float parser a parameter; zip_longest transpose.
* **C24** from_file delivers finite, row-aligned data — filters as list operations; row alignment.
* **C25** CTA/ZEM parsing — line-list parser; characterisation of used lines.
* **C26** LFA parsing — same as C25.
* **C27** parse_TEfile decisions — decision chain in order.
* **C28** Metric laws — real-valued lists; Cauchy-Schwarz for MAE<=RMSE.
* **C29** split_monotonic yields disjoint monotonic pieces — code string + regex matcher as scanner; invariant over the scan.
* **C30** split_monotonic options — same model, options.
* **C31** mixing is a weighted mean — ordered field; weighted mean lemmas.
* **C32** fermidirac and its inverse — Mathlib exp/log.
* **C33** smoothstep and its inverse — Mathlib cos/arccos (smoothstep is polynomial/trig as coded).
* **C34** Gaussian-process interpolation is exact at the data — matrix algebra: K K^-1 y = y; kernels via exp; derivative by HasDerivAt.
* **C35** interpx is piecewise-linear inter/extrapolation — piecewise linear interpolant over an ordered field.
* **C36** vinterp does not depend on data order — sort of pairs; permutation invariance through uniqueness of sorted lists.
* **C37** vquad masking — mask/fill pointwise model.
* **C38** Voigt round trip — 3x3 tensors as functions; algebra.
* **C39** rotate3d is R C R^T — matrices over a commutative ring / ℝ.
* **C40** All ways to give an axis agree — rotation matrices over ℝ with cos/sin.
* **C41** project3d — quadratic form.
* **C42** anilay bounds — harmonic/arithmetic mean inequality by induction.
* **C43** cal_ZTdev inverts the device efficiency — ℝ algebra with sqrt.
* **C44** cal_ZTdev range — ℝ monotonicity.
* **C45** cal_Yita structure and n/p symmetry — fold over segments.
* **C46** optim_u search interval — interval arithmetic.
* **C47** ztdev.valuate output — list model.
* **C48** engout integrals are exact for simple data — trapezoid integral of the piecewise-linear interpolant.
* **C49** Generator identities and geometry scaling — algebra of _simulate.
* **C50** PowerMax maximises the output power — quadratic maximum.
* **C51** YitaMax maximises the efficiency — rational function maximum with sqrt.
* **C52** Carnot bound for constant properties — inequality from 50/51.
* **C53** build/simulate protocol — state machine.
* **C54** Polynomial mode agrees with tabulated mode — polynomial integrals; negation witness for ST.
* **C55** GenPair area ratio is optimal — correct optimum proved, the coded ratio refuted by witness.
* **C56** GenPair combines its legs — algebra of GenPair.build.
* **C57** Auto-generated output names never hit the input — string function `_suffixed`.
* **C58** Sub-command dispatch — dispatch function on strings.
* **C59** tef-refine — line-level model with lazily written output.
* **C60** tef-mixing --extend — zip/zip_longest model.
* **C61** tef-mixing weights — weight string reader.
* **C62** tef-cutoff — smoothstep/fermi factor applied to columns; default-method failure.
* **C63** tef-format temperature series — arithmetic series over an ordered field with floor.
* **C64** tef-format method selection — word classifier.
* **C65** tef-format derived columns — column algebra; negation witness for L.
* **C66** tef-interp — decision model of do_interp.
* **C67** Band caching is transparent — cache state machine over abstract property functions.
* **C68** Multi-band totals — sums over bands.
* **C69** Bipolar thermal conductivity — algebra of Kbip.
* **C70** L and Ke are non-negative — Cauchy-Schwarz for the quadrature weights (Romberg weights proved non-negative).
* **C71** guess_btypes — case analysis of guess_btypes.
* **C72** MultiBands construction — constructor model with zip.
* **C73** Band sharing and extend — heap model with object identities.
* **C74** idos integrates dos — HasDerivAt.
* **C75** Anisotropy factor and constructors — ℝ inequalities / inverse formulas.
* **C76** RSPB inverse functions — inverse functions.
* **C77** RSPB.valuate recovers model inputs — algebra; negation witnesses for m_eff, Nopt.
* **C78** bandline — ℝ algebra.
* **C79** dosline — algebra; negation witness for the gap branch.
* **C80** The Fermi-integral substitution is exact — HasDerivAt of the substitution.
* **C81** valuate output keys — key-set model.
* **C82** Variable values stay in bounds and in sync — state machine with subscribers; invariant over histories.
* **C83** Variable is one object per tag — registry state machine.
* **C84** Fit evaluation synchronises everything — fold over assignments; dependency order.
* **C85** Debye model: Matthiessen's rule — list of rates; prefix sums.
* **C86** Cumulative thermal conductivity over mean free path — histogram model; negation witness for the lower edge.
* **C87** Scattering rates — closed formulas; monotonicity.
* **C88** Electron-phonon factor — log identity.
* **C89** FreeElectrons parameter selection — or-fallback model.
* **C90** Klemens model — arctan inequality.
* **C91** Disorder parameter — weighted variance.
* **C92** Sound-velocity relations — ℝ algebra / power means.
* **C93** Substituted configuration — line rewriting model; induction over the fitted variables with the invariant that a line belongs to one variable.
* **C94** Frequency unit — string decision.
* **C95** Prediction range — linspace arithmetic.
* **C96** Sub-model assembly — recursive assembly with fuel; cyclic divergence for every fuel.
* **C97** Carnot limit — induction over the segment recursion of `cal_Yita` with a potential-function argument.
* **C98** Weight factors — rescaling identities of the weight formulas.
* **C99** valuate — the build/simulate history inside `valuate` evaluated symbolically.
* **C100** Hall function — algebra on real powers.
* **C101** Hall concentration and mobility — Cauchy–Schwarz for the positive quadrature weights.
* **C102** Inversion of measured data — substitution of the generated values into `valuate`.
* **C103** Both concentration forms — integration by parts with exponential decay bounds (Mathlib improper integrals).
* **C104** Debye integrand — hyperbolic identities, `x ≤ sinh x`, limit `x / sinh x → 1`.
* **C105** Simple models — ℝ algebra and monotonicity.
* **C106** Variable syntax — the regular expression run on texts of the documented form; decision table for everything else.
* **C107** Split columns — list equality for the columns and labels.
* **C108** Sections to numbers — the constructor wiring of every section type (`Model/KappaWire.lean`), each theorem names the formula with named arguments.
* **C109** Band configuration — `parse_Bands` and the simulation part of `do_band` (`Model/BandCfg.lean`): sections to bands (wiring of each type), then the whole run against sums over bands; the root finder of scipy is a parameter.
* **C110** `tef-band -m` — the second half of `do_band` (`Model/BandModel.lean`): selection of the model, `gget`, the wrapper call, `retain`, `move_to_end`; iff-characterisations of the table and of the errors, row by row; the root finder is a parameter.
* **C111** round trip of the tables — `Model/TableFile.lean`: `_to_file`, `np.savetxt`, `np.loadtxt` (text level), the format `%.df` with ties to even on exact rationals and its reading; induction over rows, digits and lines. Reading rounds to the nearest double in the program, not in the model. Findings: `--headers` output is unreadable for `np.loadtxt`; `tef-format -d` loses all numbers of a blank-separated table.
* **C112**, **C113** `tef-engout`, `tef-ztdev` — `Model/DeviceCli.lean`: the commands from the table read to the table written, on top of the device models; explicit form of the rows, then invariance of the integrals of a pair under exchange (`r → 1/r`) and reflection. Finding: a single leg with more than four columns is refused.
* **C114**, **C115** `tef-interp`, `tef-mixing` as changes of the file system — `Model/ToolRuns.lean`: files are a map from names to texts; numbers computed are rationals, numbers read keep their sign; the interpolation of one column is a parameter. C114 by induction on the number of runs from `run ∘ run ∘ run = run ∘ run`, which rests on rounding being idempotent (C111). C115 reduces to C31 and index arithmetic of flattened tables.
* **C116**, **C117** `Alloy.to_string`, `Alloy.from_string` — `Model/AlloyText.lean`: the two patterns as `Re` terms, `str.replace`, the rewriting loop with the number of opening parentheses as bound (`C116_loop` shows it suffices). Flat formulas are described by terms (`Spec/AlloyText.lean`); the loop is followed on texts cut into pieces, the rest is C13/C14/C18.
* **C118** `do_format` as a change of the files — `Model/FormatRun.lean`: both ways of reading the data (`from_file` down to the text, `parse_TEfile` with the section `entry` of the configuration given), temperatures, methods, columns, `_to_file`. Numbers are rationals with NaN and infinities in tables; interpolation, band model and the formulas of PF … CF (C65) are parameters. Settling follows from the re-read table (C111) as for C114.
* **C119** `do_refine` and the `--extend` branch of `do_mixing` as changes of the files — `Model/TextRuns.lean` on top of `refine` and `extend` (C59, C60); the specification is the table of cells of a text (`cells`), `np.loadtxt` factors through it; histories by induction on the number of runs. Python's `int` is a parameter; line ends other than newline are not modelled.
* **C120** `do_cutoff` as a change of the files — `Model/CutRun.lean`; numbers of any type with given reading, writing, multiplication and cut-off functions; agreement with the real-number model of C62; exact decimal arithmetic (`numMul`, `numStep`) for the smoothstep results. Histories in place by induction on the number of runs, rounding included.
* **C121** `CfgParser().read_file` — `Model/CfgText.lean` models `RawConfigParser._read` of the standard library (Python 3.11) with the settings of `CfgParser` (utils.py:319-337), `Spec/CfgText.lean` describes what a file shows without reference to the reader. Proof: simulation of the reader over the blocks of the file; the refusals by monotonicity of the reader's state. `$` references are the subject of C136.
* **C122** the substituted configuration — composition of the substitution (C93) with the reader (C121) and the construction of models (C96, C108): the substituted lines show (`Spec/CfgText`) the configuration with the fitted values, hence are read as it; simulation of `parse_submodel` between variables with values and constants.
* **C123** fitting with any search — `curve_fit` is an inductive type of question/answer strategies (each finite along every sequence of answers), `Fits` the dialogue it has with the model; the state after the dialogue by induction over it, from the invariant of C82 and the consistency of one evaluation (C84).
* **C124** whole runs of `tef-kappa` — `parseKappa` and `doKappa` compose the reader of configurations (C121), the variables (C106), the wiring (C96–C99), the fit (C123), the substitution (C122), prediction and Debye details (C85) over a file system that is a function from names to texts; float, int, quad, curve_fit and the number formats are arguments. Interrupted runs are prefixes of the list of writes. The second run on the substituted file combines C122 with the invariant that configured variables are bare.
* **C125** whole runs of `tef-band` — `doBand` composes the reader of configurations (C121), the simulation (C109) and the model run per row (C110) with the reader of data files (C23) and the writer (C111) over a file system that is a function from names to texts. For `-m` the file is specified by its rows (`DataLines`), what a row says about a property by `measured`, a line of the output by `RowOf`; columns of different lengths (numpy broadcasts or fails) are an argument. Not modelled: logging, interpolation in configurations.
* **C126** numbers written and read again — `sci`, `general` (`%E`, `%g`) and `readNum` (`float`) over exact rational numbers with a sign; specified by `Rounded` (nearest number with so many digits, ties to even), which has one solution. `Loader.fromString` reads the texts through `symbols` (C13). Not modelled: the rounding of `float` to the nearest double, infinities and NaN.
* **C127** (`Model/BandTotal`, `Props/BandTotal`): `MultiBands.dos/trs/hall` over lists of bands with arbitrary functions; the bands' own integrals are taken as exact (the quadrature is C80/C103's subject). Each band's half line is shifted and reflected onto the energy axis (measure-preserving maps), the sums are exchanged with the integrals; integrability for parabolic and Kane bands from polynomial growth against the exponential window.
* **C128** (`Model/Mapping`, `Props/Mapping`): `mapping` with exact linear algebra (`solve(…, assume_a='pos')` reads the upper triangle and fails unless it is positive definite; scalar scales). The product kernel is a principal submatrix of a Kronecker product of the matrices of C34, hence positive definite; the density by substituting the square root of the matrix; the smoothing of `interp_gpr` by completing squares.
* **C129** (`Model/BandTotal`, `Props/BandOpt`): the exact transport integrals of `APSSPB` (improper integrals, not the Romberg sums) in closed form by Fermi integrals; the shape of the power factor by derivatives, the constants by alternating series bounds at two rational points.
* **C130** (`Props/BandUnits`): the formulas and constants of the band classes against SI formulas written from the docstrings (`Spec/Kappa` constants).
* **C131** (`Props/BandKane`): the corrections of the Kane band as functions of energy over gap; the 65-point sums the program computes are compared term by term (conductivity, concentration, Hall term) and by Chebyshev's inequality over pairs of nodes (thermopower); the limit term by term.
* **C132** (`Model/BandNest`, `Props/BandNest`): trees of bands; the specification lists every band with the signs and offsets on the way to it, its depth and its charge (`C132_charge`: the derivative of the depth); totals by induction over the tree; the flat case is the model of C67-C73 (`C132_flat`).
* **C133** (`Model/Describe`, `Props/Describe`): texts of bands, nested `MultiBands` and data sets; the specification `Alike` compares two trees of bands up to six-digit rounding (`Rounds` of C126); the text is a prefix code, by mutual induction over the tree (`C133_text`), exactness for short numbers (`C133_exact`), lines (`C133_lines`), data sets (`C133_dataset`, `C133_dataset2`, names from `C133_names`).
* **C134** (`Model/DotAccess`, `Props/DotAccess`): attribute lookup of Python (properties, instance, class, `__getattr__`) on a dictionary object; histories of `d[k] = v`, `del d[k]`, `d.k = v`, `del d.k`; invariants over the history.  Names with leading underscores are not in the lists of class names.
* **C135** (constant-property leg): no new model; induction over the table shows that the squared reciprocal current falls linearly with temperature; the optimum is the minimum of a linear form on a hyperbola; the search routine is a parameter assumed to have found the best value in its interval (`Best`, shown to be satisfiable).
* **C136** (`Model/CfgRef`, `Spec/CfgRef`, `Props/CfgRef`): `ExtendedInterpolation` of Python 3.11 as `CfgParser` uses it (utils.py:323): a left-to-right scan into characters, references and refused parts, evaluated with a bound on the levels. The specification `Means n` describes texts and their meaning without the scan; equivalence by induction on the text for each level, monotone in the level. The whole runs (C122-C125) work with raw values; `C136_plain_file` shows that these are the values read whenever the file has no dollar sign.
* **C137** (`Model/DeviceRun`, `Props/DeviceRun`): whole runs of `do_ztdev` and `do_engout` (interface.py:472-628): `loadtxt`, the computations of `DeviceCli`, `savetxt` with a two-line header, on a map from names to texts. Numbers are `Option ℝ` (NaN is `none`); reading and writing are given and only assumed to agree to four decimals (`Faithful`, shown satisfiable by `demo_faithful`). What a run without `-y` does with a table holding a NaN is a parameter; the theorems about the contents are for tables of numbers. Proof: inversion of the run, text lemmas of C111/C119, C112 and C113 for the contents, induction over the number of runs.
* **C138** (`Props/EngoutDoc`): no new model; the documented formulas are written down as a specification over the integrals (`yitaDoc`, `jouleDoc`, `thomson`, `resistance`), the double integrals with Mathlib's interval integral. Proof: field identities, strict monotonicity of the documented efficiency in a common factor of its coefficients, integration by parts.
* **C139** (`Model/SideBySide`, `Props/SideBySide`): a run is a process that reads its files one by one, computes, then opens and writes its output files character by character; a schedule is a list of process numbers. The effect of each tool is taken from the models of whole runs (C114, C115, C118-C120, C124, C125, C137); it is proved for every tool that the process alone is that run and that it depends on the listed input files only (for `tef-format` and `tef-kappa`: the files the configuration names). Proof: an invariant that relates every process to its undisturbed run. Not modelled: several processes writing the same file, and the order in which a tool reads its inputs (all before the first write, as in the code).
* **C140** (`Props/BandLorenz`): the exact transport integrals of `APSSPB` (as in C129) in closed form by Fermi integrals of order 0, 1, 2; the slope of the Lorenz number is positive by one differential inequality below 2.3 kB T and by the reflection formulas above; the limits by the same formulas; the dependence on the Seebeck coefficient through C129.
* **C141** (`Props/BandLinear`): the exact transport integrals of `LinearBand` in closed form by the Fermi function and Fermi integrals; monotony by derivatives (the Lorenz number through the inequality used for the power factor of C129), the optimum by bracketing its equation.
* **C142** (`Props/BandLevel`): by C103 the concentration is the mean of `idos` over a shifted window; `idos` is strictly convex since `dos` rises, hence the concentration is strictly convex and strictly rising from 0 to infinity; sums and reflections of such functions give the models of several bands.
* **C143** (`Props/BandKaneLevel`): the transport function of a Kane band is bounded, rising and strictly log-concave (a polynomial inequality with positive coefficients); the coefficients are its means over the shifted Fermi window, and the mean energy falls by a single-crossing argument; limits by dominated convergence.
* **C144** (`Props/BandMirror`): the sums over the bands in closed form (including a missing Hall function), invariance under permutation and reflection, then the sixteen properties case by case, over any field.
* **C145** (`Props/BandMixed`): per band, the coefficients as functions of its level (C129, C141, C143): positive, continuous, `K_1` vanishing in the gap, `K_1/K_0` falling from infinity to 0; then for the model each `K_1/ΣK_0` tends to 0 along either end, compactness for the maximum and the intermediate value theorem on either side.
* **C146** (`Props/BandConduct`): per band `K_0` rises strictly from 0 (C129, C141, C143), strictly convexly for parabolic bands (`fd0` has the derivative `occ`); sums over the bands with their levels, the intermediate value theorem and the valley lemma of C142.
* **C147** (`Props/DeviceMirror`): the recurrence, the bounds and the loss of the search commute with the change of sign (C45); the integrals of the mirrored leg are those of the leg with `S` and `ST` negated, so each formula of `_simulate` is compared directly; the two area ratios selected by `GenPair` are `sqrt 1`.
* **C148** (`Props/KappaHeat`): `x²eˣ/(eˣ-1)² = ((x/2)/sinh(x/2))²` falls strictly in `x` (strict convexity of sinh); monotonicity of the integral; dominated convergence with the classical factor as bound for the limits.
* **C149** (`Props/KappaKnown`): the literature formulas are written in SI units in the module; substitution `x = hbar w/(kB T)` in the integral, third powers of the prefactors, bound `x^3 e^x/(e^x-1)^2 ≤ x` for the part below the lower limit; C148 for the limits.
* **C150** (`Props/KappaClassic`): `sinh y ≤ y cosh y` and `cosh y ≤ exp (y²/2)` bound the heat capacity factor from below; the integral of the classical form becomes that of `C90_klemens` by the substitution `t = w/wD`, with the ratio of the constants of the two classes within 1e-9.
* **C151** (`Props/EngoutCarnot`): efficiency below Carnot's is a quadratic inequality in the reduced current (`carnot_at`), whose discriminant gives the exact condition; for a non-falling Seebeck coefficient Chebyshev's inequality for the trapezoidal integrals (`chebyshev_table`) puts the weighted mean temperature in the upper half; a computed two-point table shows that the limit is not enforced.
* **C152** (`Props/EngoutMaterial`): the tabulated integrals between nodes are sums of trapezoids (`tab_areas`, induction on the rows between, from `C48_trapezoid` and telescoping), hence independent of the other rows; common factors leave the weighted mean temperatures alone and the thermal conductivity enters through its integral only, so `Zeng` rises and the heat input per power falls at each current; the best efficiency follows with `C51_table`.
* **C153** (`Props/EngoutFigure`): `z ≤ zmax` at a row says that the quadratic form `t² zmax rho - 2 t S + kappa` has no negative value; the trapezoidal integral between nodes is a positive linear functional (`tab_between`, `tab_comb`), so the form of the integrals has none either, and its discriminant is the claim; the form of a pair is a positive combination of the forms of its legs.
* **C154** (`Props/EngoutBest`): `Zeng ≤ z` (C153) and Chebyshev's inequality for both weighted mean temperatures bound the heat input from below by that of a constant-property leg, whose efficiency is bounded by the textbook expression (`C51_efficiency` with `C52_constant`).

## Not modelled

scipy's interpolators, optimisers and quadrature routines themselves (they are parameters with stated
hypotheses, or the integrals they approximate); binary rounding of floating point arithmetic; number
formats other than `%.df`; argparse; the operating system; logging output; the embedded
citation/LICENSE texts.

## Findings (places where the code disagrees with its documentation or with the natural property)

Each is a theorem of the model (name in brackets).

* Dictionaries of site fractions given as plain `dict` are treated differently from `OrderedDict` (`C18_plain_dict_site`).
* `mixing` with integer first data raises `TypeError` (`C31_integer_first`); `tef-mixing` splits a digit-only weight text into single digits (`C61_*`), transposes one-row tables and empties the output file for single numbers (`C115_flat`, `C115_single`).
* `Alloy.to_string`/`from_string` do not round-trip for equal sites, for `omit_one=False` with single elements, nor in OriginLab style; `x` after a group is an `IndexError` (`C117_*`).
* `interpx` for a single number outside the range raises `TypeError` (`C35_errors`); `tef-interp` with the linear methods needs `--extrapolate` (`C66_interp`) and loses its results when repeated with `--bare` (`C114_bare`).
* `anilay` refuses arrays of two or more widths (`C42_anilay`).
* `optim_u` can leave its bracket for weak materials (`C46_*`).
* `engout`: weighted integrals are inexact between data points (`C48_between_data_inexact`), mode `scan` fails (`C53_modes`), the polynomial integral of T*S is wrong (`C54_ST_wrong`), the area ratio is inverted (`C55_claim_fails`), a single leg with more than four columns is refused (`C112_errors`).
* Output names: the directory of the input is dropped, an input without suffix can overwrite (`C57_*`); a bad column index leaves a truncated file (`C59_*`).
* `tef-cutoff` without a method fails (`C62_default_fails`); `polyN` uses the last digit only (`C64_poly_last_digit`); a given Lorenz column is ignored or mistreated (`C65_L_ignored`, `C65_L_wrong`).
* Band caches go stale after changes of the parts (`C67_sub_band_stale`, `C67_append_stale`, `C67_shared_band`); short offset or type lists drop bands silently (`C72_*`, `C109_dropped_bands`); extending a multi-band by itself does not end (`C73_*`).
* Single-band results are off by powers of the number of valleys (`C77_*`); the density of states of the linear Kane model ignores the band edge in the gap (`C79_*`); RSPB needs carrier concentrations for conductivities (`C81_*`).
* `Variable`/`kappa` configuration: `C83_broken`, `C84_earlier_changed`, `C85_total_clash`, `C86_shift`, tags are unescaped regular expressions (`C93_dot`), bad bounds are ignored (`C106_bad_bounds_ignored`), zero-valued options raise `KeyError` (`C108_EPR*`), a Klemens component is evaluated at the temperature (`C108_klemens_component`).
* Point-defect scattering uses the neutron mass as mass unit (`C87_mass_unit`), dislocation cores use a wrong power (`C87_dislocation_core_wrong`).
* Offsets can only be left out with types, `LinearBand` sections always fail (`C109_default_offsets`, `C109_linear_fails`).
* Files written with `--headers` cannot be read by the other commands (`C111_headers_unreadable`); `tef-format -d` loses blank-separated numbers (`C111_format_loses`).
* `tef-format --headers` cannot be repeated (`C118_headers`); `--CTA` cannot replace `ZEM` (`C118_no_switch`); a given `L` column is replaced by K (`C65_L_ignored`, `C118_lorenz`).
* `tef-refine -c` in place loses every row from the first short row on (`C119_refine_loss`); `tef-mixing --raw-extend` lets a comment in one file hide the columns of the later ones (`C119_raw_comment`).
* The substituted configuration: bounds given on a continuation line stay behind the number and make the new file unusable (`C122_bounds_below`); a continuation line like `[variables]` makes the substitution fail although the file can be read (`C122_header_in_value`).
* After `fit` the variables have the values of the last point the optimiser asked about, not the optimum returned (`C123_not_returned`); `tef-kappa` prints, substitutes and predicts with these, and a second fit starts there (`C123_again`).
* `tef-kappa` writes the details of a Debye model only if the section is called exactly `DEBYE`; a model named `M` in `[M.DEBYE]` gives the total alone (`debyeResults`). A section `[DEBYE.SLACK]` runs into an AttributeError unless all four detail settings are off and `frequnit` is not a unit of the Debye or reduced frequency (`C124_foreign`).
* The detail files of a run stay when a later run (for example with `-Q`) has no such details, next to a main table they do not belong to (`C124_less`, `C124_files`).
* The substituted configuration cannot be run without `predict`: having nothing to fit, it never reads `expdata`, and the run ends with a RuntimeError (`C124_subs`).
* A compound with an amount below 1e-4 (a dopant) or of at least 1e9 is written with an exponent by `to_string`, and `from_string` reads only the digits before it: `Te3I1e-05` comes back with one iodine per formula (`C126_tiny`, `C126_formula`); the sign of a negative amount is lost.
* `MultiBands.trs` counts a `LinearBand` with its full `sigma0` at every energy, also in the gap and beyond, so that its conductivity is not that of the model (`C127_linear`); `MultiBands.hall` adds electrons and holes with the same sign while the Hall coefficient subtracts them (`C127_hall`), and fails with a linear band (`C127_hall_error`).
* `mapping` adds `regular` to every entry of the kernel matrix: no smoothing, all values at the data points are shifted by one number (`C128_regular`), repeated places still fail (`C128_duplicates`), a vector of regularisations makes the outcome depend on the order of the data (`C128_vector_order`). `interp_gpr` does it right (`C128_gpr_smooths`).
* `PFmax` of a parabolic band is 2.7 parts per million too small: it lies strictly below the power factor the band itself has at `EFopt(T)` (`C129_optimum`).
* A `MultiBands` object appended to another one as a conduction band contributes to the Seebeck coefficient with the wrong sign (the sign is applied once per level), while its Hall term has the right one; appending also reverses the Seebeck coefficient of the appended object itself (`C132_nested`).
* `AttrDict.__getattr__` raises `KeyError` instead of `AttributeError`: `hasattr(d, 'x')` and `getattr(d, 'x', None)` raise, and `copy.deepcopy` fails with `KeyError: '__deepcopy__'` on every `AttrDict`, `ListDict`, `Compound` and `Alloy` (`C134_hasattr`).
* `optim_u` searches currents up to `S0*C0/K0`; for a leg with constant properties and `2*Z*(Th-Tc) > 1` (already 200 uV/K, 1000 S/cm, 1.5 W/(m.K) between 300 K and 600 K) the upper part of this interval gives NaN efficiencies (C135_nan), which scipy's bounded search compares with numbers. The best current is always below half the upper end (C135_attained).
* Since `CfgParser` interpolates, a `$` in a file name or label of a configuration (`expdata = file:$HOME/x.txt`) or of a command-line setting is an error (`C136_refused`, `C136_set`); it has to be doubled (`C136_doubled`). A command-line setting `${a:b:c}` is accepted by `entry.update` but cannot be read afterwards (example after `C136_set`).
* `tef-engout a.txt a.txt` overwrites the measured data with six columns that no later run of `tef-engout` accepts (`C137_engout_in_place`); there is no warning when output and input are the same file.
* The weight factors `GenLeg.build(calWeights=True)` reports do not fit the documented formulas: `W_J` lacks the `- Tc` of the definition (3/2 instead of 1/2 for constant properties between 300 K and 600 K), and `alpha_k` are divided by `S(Th)` instead of `Th`, so they are not dimensionless; the documented efficiency computed from them is wrong unless `S(Th) = Th` as numbers (`C138_joule`, `C138_alpha`, `C138_alpha_formula`). `W_T` and all power, heat and efficiency values are right.
* `tef-interp` and `tef-format` take an existing output file for the sampling points. A run that is killed after opening its output leaves an empty or truncated file, and the next run silently uses it: with an empty file `tef-interp` ends without error and writes an empty table (last example of `Props/SideBySide`). All other tools can simply be repeated (`C139_again`).
* A `LinearBand` never conducts as well as its `sigma0`: `solve_EF('C', value, T)` has no solution for any value from `sigma0` on (`C141_conductivity`).
* `MultiBands.N` adds electrons and holes, so for a model with both kinds of bands a concentration has two Fermi levels or none (`C142_twokinds`); which one `solve_EF('N', …)` finds depends on the initial guess, and no neutrality or net-doping equation can be solved through `N`.
* The conductivity of a Kane band is bounded: `APSSKB.C` stays below `3*sigma0*Eg/(4*kB*T)` at every Fermi level, so `solve_EF('C', value, T)` has no solution from there on (`C143_conductivity`).
* With conduction and valence bands `S(EF)` is bounded and returns to 0 at both ends, so `solve_EF('S', value, T)` has no solution beyond its maximum and two or more below it; the code returns whichever its initial level leads to (or `nan`) without notice (`C145_twokinds`).
* With conduction and valence bands the conductivity never falls below a positive value, and for parabolic bands every larger value has exactly two Fermi levels: `solve_EF('C', …)` has no solution or an ambiguous one (`C146_twokinds`, `C146_parabolic`).
* **`GenLeg` may report efficiencies above Carnot's limit** (C151). The Peltier and Thomson part of the heat input is proportional to `2*<T*S>/<S> - Tc`, which is below `Th` for a Seebeck coefficient that falls with the temperature; if it falls steeply the heat input becomes too small for the power: two points (300 K, 900 uV/K), (600 K, 100 uV/K) with C=20000, K=3 give `valuate` = 67.6 % (Carnot: 50 %), without any warning.

{"id": "C01", "title": "retain keeps exactly the named entries", "statement": "After popped = d.retain(keys), d holds exactly the entries of the old d whose key occurs in keys, with their old values and in their old relative order, and popped holds exactly the removed entries; together they are the old dictionary.", "quantifier": "every dictionary, every collection of keys (repeats and unknown keys included), every iteration order of the intermediate set", "why_tests_cant": "removal is driven by an arbitrary set iteration order; tests see one order and a few dictionaries", "anchors": ["src/teflow/utils.py:AttrDict.retain"]}
{"id": "C02", "title": "retain(match_order=True) orders the result by keys", "statement": "After d.retain(keys, match_order=True) the surviving keys appear in the order of their (last) position in keys, values unchanged, and the survivors are the same as without match_order.", "quantifier": "every dictionary and every key sequence, with repeats", "why_tests_cant": "the reordering uses a prefix scan plus moves; correctness is an induction over all orders", "anchors": ["src/teflow/utils.py:AttrDict.retain"]}
{"id": "C03", "title": "retain's error behaviour", "statement": "retain raises TypeError on a non-iterable and leaves d alone; with match_order=True and an iterable that is not a sequence it raises TypeError, but only after the unlisted entries have already been removed (so the error is not side-effect free).", "quantifier": "every dictionary and key collection", "why_tests_cant": "a crash point inside an operation: needs the state after every failing call", "anchors": ["src/teflow/utils.py:AttrDict.retain"]}
{"id": "C04", "title": "ListDict merge/append/extend laws", "statement": "ListDict.merge(objs+[o]) equals merge(objs) followed by append(o); merge(a+b) equals merge(a) followed by extend(merge(b)); a missing key raises KeyError, and append then leaves exactly the columns before the missing key one longer.", "quantifier": "every non-empty list of dictionaries and every key list", "why_tests_cant": "algebraic law over unbounded lists and failing positions", "anchors": ["src/teflow/utils.py:ListDict.merge", "src/teflow/utils.py:ListDict.append", "src/teflow/utils.py:ListDict.extend"]}
{"id": "C05", "title": "ListDict.sum laws", "statement": "ListDict.sum gives, for each requested key, start plus the sum of that key over all dictionaries; the result does not depend on the order of the dictionaries, and summing a concatenation is summing in two steps.", "quantifier": "every list of dictionaries, every start, every key list", "why_tests_cant": "order independence quantifies over all permutations", "anchors": ["src/teflow/utils.py:ListDict.sum"]}
{"id": "C06", "title": "parse_list tokenises exactly", "statement": "parse_list returns the non-empty maximal runs of characters that are neither whitespace nor commas, in order; joining any tokens with any non-empty mixture of blanks and commas and parsing gives the tokens back.", "quantifier": "every string, every token list, every separator mixture", "why_tests_cant": "unbounded strings; round trip", "anchors": ["src/teflow/utils.py:CfgParser.parse_list", "src/teflow/utils.py:CfgParser.parse_list_float", "src/teflow/utils.py:CfgParser.parse_list_int"]}
{"id": "C07", "title": "parse_seq range expansion", "statement": "In parse_seq, 'a:b' yields a, a+1, ... up to and including the last value below b+1E-4, and 'a:s:b' yields a, a+s, ... with int((b-a)/s+1E-4)+1 values staying between a and b (up to 1E-4 steps), nothing when the step points away from b, and ZeroDivisionError for a zero step.", "quantifier": "all start, step and end values (exact arithmetic)", "why_tests_cant": "unbounded lengths; inclusive-end tolerance at every boundary", "anchors": ["src/teflow/utils.py:CfgParser.parse_seq"]}
{"id": "C08", "title": "parse_seq text splitting", "statement": "parse_seq splits its text at runs of blanks/commas that are not adjacent to a colon: any list of items joined by separators is expanded item by item, at most one blank is tolerated on each side of a colon, and an item with more than three fields raises ValueError.", "quantifier": "every string", "why_tests_cant": "regular expression with look-around over all strings", "anchors": ["src/teflow/utils.py:CfgParser.parse_seq"]}
{"id": "C09", "title": "pmatch finds the first section with the given prefix", "statement": "pmatch(name) returns the first section, in file order, that is named 'name' or starts with 'name.', with its type (the text after the first dot, or the whole name), and raises NoSectionError exactly when there is none.", "quantifier": "every list of sections and every name", "why_tests_cant": "all section orders and names", "anchors": ["src/teflow/utils.py:CfgParser.pmatch"]}
{"id": "C10", "title": "ExecWrapper passes the latest values", "statement": "After any history of update calls, execute(**kw) calls the wrapped object with, for each declared argument, the value from kw if given, else the last updated value; undeclared names are ignored and unset optional names are omitted.", "quantifier": "every history of update/execute calls", "why_tests_cant": "quantifies over histories", "anchors": ["src/teflow/utils.py:ExecWrapper.update", "src/teflow/utils.py:ExecWrapper.execute"]}
{"id": "C11", "title": "ExecWrapper failure and isolation", "statement": "execute raises ValueError exactly when some required argument has no value (naming exactly those), wraps any exception of the object in RuntimeError, and never changes the stored values.", "quantifier": "every history and every keyword set", "why_tests_cant": "histories and error branches", "anchors": ["src/teflow/utils.py:ExecWrapper.execute"]}
{"id": "C12", "title": "get_root_logger never duplicates handlers", "statement": "After any sequence of get_root_logger calls each logger has at most one handler per target (console, or a given file name), and the handler is the one from the latest call for that target.", "quantifier": "every call history", "why_tests_cant": "quantifies over histories", "anchors": ["src/teflow/utils.py:get_root_logger"]}
{"id": "C13", "title": "Compound text round trip", "statement": "Compound.from_string(c.to_string()) gives back c (same elements, same order, same amounts) for every style, for valid element symbols with printable plain-decimal amounts.", "quantifier": "every compound", "why_tests_cant": "round trip over unbounded structures", "anchors": ["src/teflow/loader.py:Compound.from_string", "src/teflow/loader.py:Compound.to_string"]}
{"id": "C14", "title": "Compound.from_string on arbitrary text", "statement": "from_string returns one entry per distinct recognised symbol, in order of first occurrence, with the amount of the last occurrence (repeated symbols are overwritten, not summed); unknown symbols are kept, skipped or rejected according to the flags.", "quantifier": "every formula string", "why_tests_cant": "all strings", "anchors": ["src/teflow/loader.py:Compound.from_string"]}
{"id": "C15", "title": "Compound.replace", "statement": "replace(old,new) renames one element keeping its amount: with match_order=True every entry keeps its position, otherwise the new element goes last; KeyError exactly when old is absent or new is present, leaving the compound unchanged; replacing back restores the compound.", "quantifier": "every compound, every pair of names", "why_tests_cant": "loop over popped items, all positions", "anchors": ["src/teflow/loader.py:Compound.replace"]}
{"id": "C16", "title": "natom rounding", "statement": "natom is within 1E-8 of the sum of the amounts, is that sum unless an integer lies within 1E-8 of it, and is an integer in that case.", "quantifier": "every compound", "why_tests_cant": "all real sums around the tolerance", "anchors": ["src/teflow/loader.py:Compound.natom"]}
{"id": "C17", "title": "weight_ave is an average", "statement": "weight_ave of a compound with positive amounts lies between the smallest and largest atomic weight of its elements (when natom is exact), equals the weight for a single element, ignores element order, and is unchanged when all amounts are multiplied by a constant; unknown elements raise KeyError.", "quantifier": "every compound", "why_tests_cant": "all amounts and permutations", "anchors": ["src/teflow/loader.py:Compound.weight_ave", "src/teflow/loader.py:Compound.weights"]}
{"id": "C18", "title": "Alloy stoichiometry", "statement": "Alloy.from_compounds rescales each site so its amounts total the requested number of atoms without changing their ratios; all_sites(regular=True) yields for each site fractions that total 1 together with that total; more than 26 unnamed sites is rejected.", "quantifier": "every list of compounds, names and totals", "why_tests_cant": "unbounded site lists", "anchors": ["src/teflow/loader.py:Alloy.from_compounds", "src/teflow/loader.py:Alloy.all_sites"]}
{"id": "C19", "title": "C, R, N and U stay mutually consistent", "statement": "Whenever TEdataset(2).get can deliver them from the same data, C*R = 1E4 and C = 1.602176634*N*U hold point by point.", "quantifier": "every set of available columns and all non-zero values", "why_tests_cant": "every combination of available columns and values", "anchors": ["src/teflow/loader.py:TEdatasetBase._getC", "src/teflow/loader.py:TEdatasetBase._getR", "src/teflow/loader.py:TEdatasetBase._getN", "src/teflow/loader.py:TEdatasetBase._getU"]}
{"id": "C20", "title": "get/[]/gget precedence and errors", "statement": "get returns stored data verbatim when present, a derived value when derivable, else the default, and raises ValueError exactly when nothing is available and no default is given; [] only ever returns stored data; gget is get item by item.", "quantifier": "every dataset, key and default", "why_tests_cant": "full decision table over all datasets", "anchors": ["src/teflow/loader.py:TEdataset.get", "src/teflow/loader.py:TEdataset2.get", "src/teflow/loader.py:TEdatasetBase.gget"]}
{"id": "C21", "title": "TEdataset2 links each property to its temperature", "statement": "Each stored property is paired with the temperature column nearest before it; building fails exactly when the first identifier is not the temperature; derived N and U never mix columns from different temperature blocks.", "quantifier": "every group and data list", "why_tests_cant": "unbounded column layouts", "anchors": ["src/teflow/loader.py:TEdataset2._initialize_data"]}
{"id": "C22", "title": "parse_group", "statement": "parse_group splits a string into identifiers of an upper-case letter plus at most one lower-case letter, digit or underscore, in order, skipping other characters; concatenated identifiers parse back unchanged; a list is returned as is.", "quantifier": "every string", "why_tests_cant": "all strings; round trip", "anchors": ["src/teflow/loader.py:TEdatasetBase.parse_group"]}
{"id": "C23", "title": "parse_datafile gives a rectangular table", "statement": "parse_datafile returns columns of equal length (the number of data rows), entry (i,j) being the j-th number of the i-th data row or NaN if that row is shorter or the item is not a number; text from '#' on never contributes a number.", "quantifier": "every file content", "why_tests_cant": "all ragged files", "anchors": ["src/teflow/loader.py:TEdatasetBase.parse_datafile"]}
{"id": "C24", "title": "from_file delivers finite, row-aligned data", "statement": "TEdataset.from_file columns contain only finite values in file order; in TEdataset2.from_file every block of a temperature and its properties consists of exactly the rows in which all of the block is finite, so T and property arrays stay aligned.", "quantifier": "every table with missing values", "why_tests_cant": "all patterns of missing values", "anchors": ["src/teflow/loader.py:TEdataset.from_file", "src/teflow/loader.py:TEdataset2.from_file"]}
{"id": "C25", "title": "CTA/ZEM parsing", "statement": "The parsed T, R, S come, in order, from fields 0, 1 and 4 of exactly the tab-separated lines after the first header line that have at least 5 fields, with T shifted by 273 and (ZEM) R, S scaled by 1E6; no header line gives IOError.", "quantifier": "every file content", "why_tests_cant": "all files", "anchors": ["src/teflow/loader.py:_parse_CTA_ZEM", "src/teflow/loader.py:parseCTA", "src/teflow/loader.py:parseZEM"]}
{"id": "C26", "title": "LFA parsing", "statement": "parseLFA uses exactly the '#Mean' lines with at least three non-empty fields if there are any, otherwise every line with at least three fields; T is shifted by 273; T and diffusivity have equal length; a missing '##Results' header gives IOError.", "quantifier": "every file content", "why_tests_cant": "all files", "anchors": ["src/teflow/loader.py:parseLFA"]}
{"id": "C27", "title": "parse_TEfile decisions", "statement": "parse_TEfile demands sample, exactly one of ZEM/CTA, LFA and density (in this order of checks) and otherwise fails; on success kappa = diffusivity*density*Cp point by point.", "quantifier": "every combination of present parameters", "why_tests_cant": "decision table over all combinations", "anchors": ["src/teflow/loader.py:parse_TEfile", "src/teflow/loader.py:parse_CpT"]}
{"id": "C28", "title": "Metric laws", "statement": "MSE, RMSE, MAE, SMAPE are non-negative and zero only for equal data; MSE, RMSE, MAE, SMAPE are symmetric; RMSE^2 = MSE; MAE <= RMSE; SMAPE <= 2; MAPE is unchanged by rescaling both data sets.", "quantifier": "all data of any length", "why_tests_cant": "inequalities over all vectors", "anchors": ["src/teflow/mathext.py:Metric"]}
{"id": "C29", "title": "split_monotonic yields disjoint monotonic pieces", "statement": "With default options the returned index ranges are in order and share no step, each piece is monotonic up to eps with the reported sign, starts and ends with a real (> eps) step in its direction, and every real step of the data lies in exactly one piece.", "quantifier": "every array and eps", "why_tests_cant": "regular-expression scan over all arrays", "anchors": ["src/teflow/mathext.py:split_monotonic"]}
{"id": "C30", "title": "split_monotonic options", "statement": "trend='ascending'/'descending' returns exactly the pieces of trend='both' with that sign; the ends option only adds or drops the end points; invalid options raise ValueError.", "quantifier": "every array and option string", "why_tests_cant": "all arrays and options", "anchors": ["src/teflow/mathext.py:split_monotonic"]}
{"id": "C31", "title": "mixing is a weighted mean", "statement": "With default scale mixing returns sum(w*d)/sum(w): between the smallest and largest input for non-negative weights, unchanged by a common factor on the weights, independent of the order of (data, weight) pairs; wrong weight count or shapes raise ValueError.", "quantifier": "any number of data sets, all weights", "why_tests_cant": "all lists and permutations", "anchors": ["src/teflow/mathext.py:mixing"]}
{"id": "C32", "title": "fermidirac and its inverse", "statement": "fermidirac is strictly decreasing with values in (0,1), satisfies f(-x)=1-f(x), and fermidirac(.,inverse=True) is its two-sided inverse.", "quantifier": "all reals", "why_tests_cant": "continuum of inputs", "anchors": ["src/teflow/mathext.py:fermidirac"]}
{"id": "C33", "title": "smoothstep and its inverse", "statement": "smoothstep takes values in [0,1], is monotone, saturates outside the transition, obeys shifted(x)=plain((1-x)/2), and inverse=True is its two-sided inverse on the transition range.", "quantifier": "all reals, both shift settings", "why_tests_cant": "continuum; trigonometric identity", "anchors": ["src/teflow/mathext.py:smoothstep"]}
{"id": "C34", "title": "Gaussian-process interpolation is exact at the data", "statement": "With no regularisation interp_gpr returns y at the data points for both kernels; kernels are symmetric with values in (0,1], equal 1 on the diagonal, and the gradient option is the derivative in the query point.", "quantifier": "all data with a solvable kernel matrix", "why_tests_cant": "continuum of inputs", "anchors": ["src/teflow/mathext.py:_interp_gpr", "src/teflow/mathext.py:_kernel_rbf", "src/teflow/mathext.py:_kernel_dfx"]}
{"id": "C35", "title": "interpx is piecewise-linear inter/extrapolation", "statement": "interpx returns y at every data x, reproduces every straight line at every query point (also outside the range), stays between neighbouring data inside the range, and returns the left/right value outside when given.", "quantifier": "all strictly increasing x, all y, all queries", "why_tests_cant": "continuum of inputs and lengths", "anchors": ["src/teflow/mathext.py:interpx", "src/teflow/mathext.py:_interpx"]}
{"id": "C36", "title": "vinterp does not depend on data order", "statement": "With reorder=True vinterp gives the same result for every ordering of the (x,y) pairs with distinct x; with reorder=False it raises ValueError exactly when x decreases somewhere; wrong length or non-finite input raises ValueError.", "quantifier": "all data and permutations", "why_tests_cant": "quantifies over permutations", "anchors": ["src/teflow/mathext.py:vinterp"]}
{"id": "C37", "title": "vquad masking", "statement": "vquad integrates exactly where the mask is true and returns (fill_value, 0) elsewhere; every output element depends only on the broadcast inputs at its own position.", "quantifier": "all shapes and masks", "why_tests_cant": "all broadcast shapes", "anchors": ["src/teflow/mathext.py:vquad"]}
{"id": "C38", "title": "Voigt round trip", "statement": "tens2seq(seq2tens(s)) = s for every use_upper option; seq2tens(tens2seq(m)) = m exactly for symmetric m, and the default option returns the symmetric part.", "quantifier": "all tensors", "why_tests_cant": "continuum", "anchors": ["src/teflow/anisotro.py:tens2seq", "src/teflow/anisotro.py:seq2tens"]}
{"id": "C39", "title": "rotate3d is R C R^T", "statement": "rotate3d returns the Voigt form of R*C*R^T; successive rotations compose; for orthogonal R the trace, determinant and second invariant are preserved and the transposed rotation undoes it.", "quantifier": "all matrices and tensors", "why_tests_cant": "continuum; polynomial identities", "anchors": ["src/teflow/anisotro.py:rotate3d"]}
{"id": "C40", "title": "All ways to give an axis agree", "statement": "orient='x','y','z' equals the vector forms (1,0,0),(0,1,0),(0,0,1) of any length; rotating by y then z equals comb_rotations; angle addition holds on a fixed axis; every rotation so generated is orthogonal with determinant 1.", "quantifier": "all angles and axes", "why_tests_cant": "continuum; trigonometric identities", "anchors": ["src/teflow/anisotro.py:rotate3d", "src/teflow/anisotro.py:comb_rotations"]}
{"id": "C41", "title": "project3d", "statement": "project3d is n.C.n for the unit vector of the given angles, lies between the extreme values of the quadratic form, is additive in the tensor, and equals the zz component after rotating that direction onto z.", "quantifier": "all angles and tensors", "why_tests_cant": "continuum", "anchors": ["src/teflow/anisotro.py:project3d"]}
{"id": "C42", "title": "anilay bounds", "statement": "For positive layers vertical conductivities are at most the parallel ones and both lie between the extreme layer values; Seebeck values lie between layer extremes; identical layers give the layer values; layer order is irrelevant; across and along the layers the stack carries heat, current and thermovoltage as one layer of the total width with the six values.", "quantifier": "any number of layers, all widths", "why_tests_cant": "unbounded lists; mean inequality", "anchors": ["src/teflow/anisotro.py:anilay"]}
{"id": "C43", "title": "cal_ZTdev inverts the device efficiency", "statement": "cal_ZTdev applied to the efficiency of a constant-property generator with figure of merit z and temperatures Tc<Th returns z (outside its 1E-3 guard).", "quantifier": "all z>=0, Tc, Th", "why_tests_cant": "continuum", "anchors": ["src/teflow/ztdev.py:cal_ZTdev"]}
{"id": "C44", "title": "cal_ZTdev range", "statement": "cal_ZTdev is 0 at zero efficiency and on the guarded set |Th(1-y/100)-Tc|<=1E-3, non-negative and strictly increasing for efficiencies from 0 up to the Carnot guard.", "quantifier": "all inputs", "why_tests_cant": "continuum and guard boundary", "anchors": ["src/teflow/ztdev.py:cal_ZTdev"]}
{"id": "C45", "title": "cal_Yita structure and n/p symmetry", "statement": "cal_Yita returns one value per temperature starting with 0, the last equals the scalar result, each value depends only on data up to that temperature, and negating S and u together changes nothing.", "quantifier": "all data lengths and values", "why_tests_cant": "induction over unbounded data", "anchors": ["src/teflow/ztdev.py:cal_Yita", "src/teflow/ztdev.py:cal_Phi"]}
{"id": "C46", "title": "optim_u search interval", "statement": "The interval searched by optim_u has the sign of S[0], mirrors exactly for negated S, and is ordered exactly when |S0|*C0/K0 >= 100; when |S0|*C0/K0 < 100 (in particular S0 = 0) optim_u always ends in an error.", "quantifier": "all data", "why_tests_cant": "boundary analysis over all reals", "anchors": ["src/teflow/ztdev.py:optim_u"]}
{"id": "C47", "title": "ztdev.valuate output", "statement": "valuate returns Th = T, Tc = T[0] repeated, and pairs efficiencies with temperatures; with allTemp=False the single efficiency is combined with every temperature, so only the last ZTdev is meaningful.", "quantifier": "all data", "why_tests_cant": "all lengths", "anchors": ["src/teflow/ztdev.py:valuate"]}
{"id": "C48", "title": "engout integrals: exactness, bounds, additivity", "statement": "For tabulated data the plain integrals <Rho>, <S>, <K> are additive over intermediate temperatures, bounded by the extreme values and exact for constant properties at any Tc, Th inside the table; the temperature-weighted integrals <T*Rho>, <T*S> are exact for constants when Tc and Th are table temperatures, and provably inexact in between; outside the table nothing is added.", "quantifier": "all tables, Tc, Th", "why_tests_cant": "induction over unbounded tables", "anchors": ["src/teflow/engout.py:GenCore._get_itgs"]}
{"id": "C49", "title": "Generator identities and geometry scaling", "statement": "Pout = 1E-3*I*Vout, Yita = 100*Pout/Qhot, Yita does not depend on leg length or area, currents and powers scale with A/L, and reversing the sign of S flips I and Vout only.", "quantifier": "all profiles and currents", "why_tests_cant": "continuum", "anchors": ["src/teflow/engout.py:GenCore._simulate", "src/teflow/engout.py:GenCore._get_prfs"]}
{"id": "C50", "title": "PowerMax maximises the output power", "statement": "The output power at I_r='PowerMax' is at least the output power at any reduced current.", "quantifier": "all currents and profiles", "why_tests_cant": "optimality over the continuum", "anchors": ["src/teflow/engout.py:GenCore._simulate"]}
{"id": "C51", "title": "YitaMax maximises the efficiency", "statement": "The efficiency at I_r='YitaMax' is at least that at any reduced current in [0,1] with positive heat input.", "quantifier": "all currents and profiles", "why_tests_cant": "optimality over the continuum", "anchors": ["src/teflow/engout.py:GenCore._simulate", "src/teflow/engout.py:GenCore._get_prfs"]}
{"id": "C52", "title": "Carnot bound for constant properties", "statement": "For constant properties the efficiency at every reduced current in [0,1] is at most the Carnot efficiency, and the optimal one is the textbook expression in ZT.", "quantifier": "all constant materials and temperatures", "why_tests_cant": "continuum", "anchors": ["src/teflow/engout.py:GenLeg.simulate"]}
{"id": "C53", "title": "build/simulate protocol", "statement": "simulate before build raises RuntimeError; after any history simulate uses the profiles of the latest build; unknown mode strings raise ValueError; one value of a temperature or a current is repeated for all cases, other numbers of values have to agree or a ValueError leaves the leg as it was; the 'scan' mode ends in TypeError for floating-point temperatures.", "quantifier": "all call histories and mode strings", "why_tests_cant": "histories", "anchors": ["src/teflow/engout.py:GenCore._simulate", "src/teflow/engout.py:GenCore._build"]}
{"id": "C54", "title": "Polynomial mode agrees with tabulated mode", "statement": "Polynomial input gives the exact integrals of the polynomials for <Rho>, <S>, <K> and <T*Rho>; the Seebeck-temperature integral <T*S> is computed from the resistivity polynomial, so it is wrong unless the two happen to agree.", "quantifier": "all polynomials, Tc, Th", "why_tests_cant": "continuum", "anchors": ["src/teflow/engout.py:GenCore._get_itgs"]}
{"id": "C55", "title": "GenPair area ratio: what it is and when it is optimal", "statement": "ratioArea='ZTengMax' ('PFengMax') uses a ratio that is the largest ZTeng (PFeng) over all positive area ratios exactly when Rho_p*K_n = Rho_n*K_p (Rho_p = Rho_n); otherwise the inverse ratio is strictly better, and the true optimum is known in closed form.", "quantifier": "all materials and ratios", "why_tests_cant": "optimality over the continuum", "anchors": ["src/teflow/engout.py:GenPair._get_itgs"]}
{"id": "C56", "title": "GenPair combines its legs", "statement": "The pair's resistance and conductance are those of two legs in series/parallel for the given ratios, swapping the legs (and inverting the ratios) only reverses the voltage sign, and pair builds always compute weight factors.", "quantifier": "all materials and ratios", "why_tests_cant": "continuum", "anchors": ["src/teflow/engout.py:GenPair._get_itgs", "src/teflow/engout.py:GenPair.build"]}
{"id": "C57", "title": "Auto-generated output names", "statement": "When no output name is given the generated name differs from the input file's own name (and loses its directory); a given output name is used as is; the derived outputs of tef-kappa have pairwise different names, but with a given output name a derived name can coincide with the input file, which is then overwritten.", "quantifier": "all file names", "why_tests_cant": "all strings", "anchors": ["src/teflow/interface.py:_suffixed", "src/teflow/interface.py:do_kappa"]}
{"id": "C58", "title": "Sub-command dispatch", "statement": "The first argument selects the sub-command by case-insensitive prefix, remaining arguments are passed on unchanged, anything else prints help, nothing prints the version line.", "quantifier": "all argument lists", "why_tests_cant": "all strings", "anchors": ["src/teflow/interface.py:_do_main"]}
{"id": "C59", "title": "tef-refine", "statement": "Every output row of refine is a non-empty uncommented input row with blanks normalised and the picked columns in order; refining a bare result again changes nothing; a column out of range leaves a truncated output file holding exactly the rows before the failure.", "quantifier": "all files and column lists", "why_tests_cant": "all files; crash point", "anchors": ["src/teflow/interface.py:do_refine"]}
{"id": "C60", "title": "tef-mixing --extend", "statement": "Without padding the number of output rows is the smallest number of (filtered) rows, with padding the largest, every output row joins row i of each file, and padding fills missing rows with ncol copies.", "quantifier": "any number of files", "why_tests_cant": "unbounded ragged inputs", "anchors": ["src/teflow/interface.py:do_mixing"]}
{"id": "C61", "title": "tef-mixing weights", "statement": "A weight string of digits is read digit by digit, otherwise as blank-separated numbers; a scale below 1E-4 in size means normalised mixing.", "quantifier": "all strings", "why_tests_cant": "all strings", "anchors": ["src/teflow/interface.py:do_mixing"]}
{"id": "C62", "title": "tef-cutoff", "statement": "cutoff multiplies exactly the selected columns by a factor in [0,1] that decreases with temperature, is 1/2 at the threshold; other columns are unchanged; without -m the command always fails.", "quantifier": "all tables and options", "why_tests_cant": "continuum and default option", "anchors": ["src/teflow/interface.py:do_cutoff"]}
{"id": "C63", "title": "tef-format temperature series", "statement": "The automatic temperature series is strictly increasing with constant step after the first points and ends within half a step of the maximum temperature (when that is large enough).", "quantifier": "all steps and maxima", "why_tests_cant": "continuum", "anchors": ["src/teflow/interface.py:do_format"]}
{"id": "C64", "title": "tef-format method selection", "statement": "The method option accepts one or at least three words, maps each to a supported interpolation by its initial (or polynomial digit), in the order C, S, K, and rejects everything else.", "quantifier": "all option strings", "why_tests_cant": "all strings", "anchors": ["src/teflow/interface.py:do_format"]}
{"id": "C65", "title": "tef-format derived columns", "statement": "PF, ZT and CF obey their definitions; CF maximises the reduced efficiency; ZTave is the trapezoid device figure of merit, equal to ZT where the thermal integral is negligible and, for constant properties, to ZT at the mean temperature; with an input L column the Lorenz number written is the interpolated K data (not L).", "quantifier": "all tables", "why_tests_cant": "continuum", "anchors": ["src/teflow/interface.py:do_format"]}
{"id": "C66", "title": "tef-interp", "statement": "The sampling points come from the output file if it exists, else from start:step:stop (all points below stop + step/1000), else equally spaced between the ends of the data; the linear methods always need --extrapolate to finish; the table written has the points in front unless --bare.", "quantifier": "all inputs and options", "why_tests_cant": "all files and options", "anchors": ["src/teflow/interface.py:do_interp"]}
{"id": "C67", "title": "Band caching is transparent", "statement": "After compile(EF,T) every property of a single band up to the compiled level equals the direct evaluation at (EF,T), whatever arguments are passed; after clear the direct evaluation is back, for any history of compile/clear calls. The same holds for MultiBands whose band objects are pairwise different, uncompiled before and have a Hall integral; with a shared or precompiled band, a band appended later or a LinearBand it does not (compile fails or values are stale).", "quantifier": "all histories, EF, T", "why_tests_cant": "histories", "anchors": ["src/teflow/bandlib.py:BaseBand.compile", "src/teflow/bandlib.py:BaseBand.fetch", "src/teflow/bandlib.py:BaseBand.clear", "src/teflow/bandlib.py:MultiBands.compile"]}
{"id": "C68", "title": "Multi-band totals", "statement": "For a MultiBands model N, C and the Hall term are sums over bands, the Seebeck coefficient is the conductivity-weighted mean of the band values, independent of band order.", "quantifier": "any number of bands", "why_tests_cant": "unbounded band lists", "anchors": ["src/teflow/bandlib.py:MultiBands._K_n", "src/teflow/bandlib.py:MultiBands._N", "src/teflow/bandlib.py:MultiBands._CCRH"]}
{"id": "C69", "title": "Bipolar thermal conductivity", "statement": "Kbip is non-negative, zero with only one carrier type, and equals Ke of the whole minus Ke of the conduction and valence parts.", "quantifier": "all band sets", "why_tests_cant": "continuum; convexity inequality", "anchors": ["src/teflow/bandlib.py:MultiBands.Kbip"]}
{"id": "C70", "title": "L and Ke are non-negative", "statement": "For any non-negative transport function the Romberg quadrature used gives K0*K2 >= K1^2, so the Lorenz number and the electronic thermal conductivity are non-negative.", "quantifier": "all transport functions, EF, T", "why_tests_cant": "inequality over all functions", "anchors": ["src/teflow/bandlib.py:romb_dfx", "src/teflow/bandlib.py:BaseBand.L", "src/teflow/bandlib.py:BaseBand.Ke"]}
{"id": "C71", "title": "guess_btypes", "statement": "guess_btypes returns one type per offset following the sign rule, resolves near-zero offsets only when all others agree, and fails exactly when that is ambiguous.", "quantifier": "all offset lists", "why_tests_cant": "all lists and tolerance boundary", "anchors": ["src/teflow/bandlib.py:MultiBands.guess_btypes"]}
{"id": "C72", "title": "MultiBands construction", "statement": "MultiBands keeps every band in order with its offset when the type list has length one or the number of bands; a shorter type list silently drops bands; mismatched offsets or unknown types raise ValueError.", "quantifier": "all lists", "why_tests_cant": "unbounded lists", "anchors": ["src/teflow/bandlib.py:MultiBands.__init__", "src/teflow/bandlib.py:MultiBands.append"]}
{"id": "C73", "title": "Band sharing and extend", "statement": "The carrier sign is stored in the band object: appending one object twice with different types changes both occurrences; extend appends the other's bands with their types; a.extend(a) on a non-empty model never finishes.", "quantifier": "all append histories", "why_tests_cant": "aliasing and non-termination", "anchors": ["src/teflow/bandlib.py:MultiBands.append", "src/teflow/bandlib.py:MultiBands.extend"]}
{"id": "C74", "title": "idos integrates dos", "statement": "For the parabolic, Kane and linear bands idos vanishes at 0 and its derivative is dos at every positive energy.", "quantifier": "all energies and parameters", "why_tests_cant": "continuum", "anchors": ["src/teflow/bandlib.py:APSSPB.idos", "src/teflow/bandlib.py:APSSKB.idos", "src/teflow/bandlib.py:LinearBand.idos"]}
{"id": "C75", "title": "Anisotropy factor and constructors", "statement": "Kstar is at most 1 with equality only for Kmass=1; from_UWT and UWT are inverse; from_DP with m2 omitted is isotropic.", "quantifier": "all parameters", "why_tests_cant": "continuum", "anchors": ["src/teflow/bandlib.py:APSSPB.Kstar", "src/teflow/bandlib.py:APSSPB.from_UWT", "src/teflow/bandlib.py:APSSPB.from_DP"]}
{"id": "C76", "title": "RSPB inverse functions", "statement": "iSr, iUr and iLr invert Sr, Ur and Lr for every positive reduced concentration and every non-zero factor, and Sr, Ur are strictly decreasing.", "quantifier": "all arguments", "why_tests_cant": "continuum", "anchors": ["src/teflow/bandlib.py:RSPB"]}
{"id": "C77", "title": "RSPB.valuate recovers model inputs", "statement": "Feeding data generated from the RSPB model at known (Nr, UWT, m_d, T) to RSPB.valuate returns UWT and the Lorenz number; the reported m_eff and Nopt are off by fixed powers of N0.", "quantifier": "all model inputs", "why_tests_cant": "continuum", "anchors": ["src/teflow/bandlib.py:RSPB.valuate"]}
{"id": "C78", "title": "bandline", "statement": "bandline is even about k0 with minimum (or maximum) E0, and the Kane form solves e(1+|e|/Eg) = parabola; it tends below the parabola in size.", "quantifier": "all arguments", "why_tests_cant": "continuum", "anchors": ["src/teflow/bandlib.py:bandline"]}
{"id": "C79", "title": "dosline", "statement": "dosline without gap vanishes outside the band, is non-negative and translation covariant; with a gap the energy offset and the sign of the mass are ignored.", "quantifier": "all arguments", "why_tests_cant": "continuum", "anchors": ["src/teflow/bandlib.py:dosline"]}
{"id": "C80", "title": "The Fermi-integral substitution is exact", "statement": "The sampling points and weights of romb_dfx are the exact change of variables for the derivative of the Fermi function.", "quantifier": "all t in (0,1)", "why_tests_cant": "continuum", "anchors": ["src/teflow/bandlib.py:romb_dfx"]}
{"id": "C81", "title": "valuate output keys", "statement": "The set of properties returned by APSSPB/APSSKB/RSPB.valuate is exactly determined by which inputs are given, and Kp + Ke = K.", "quantifier": "all input combinations", "why_tests_cant": "decision table with all values", "anchors": ["src/teflow/bandlib.py:APSSPB.valuate", "src/teflow/bandlib.py:APSSKB.valuate", "src/teflow/bandlib.py:RSPB.valuate"]}
{"id": "C82", "title": "Variable values stay in bounds and in sync", "statement": "After any history of assignments an unconstrained Variable's value lies in its bounds, a rejected assignment changes nothing, and every registered parameter set holds value*scale under its key (unless overwritten directly).", "quantifier": "all histories", "why_tests_cant": "histories with shared state", "anchors": ["src/teflow/kappa.py:Variable", "src/teflow/kappa.py:Parameters"]}
{"id": "C83", "title": "Variable is one object per tag", "statement": "Constructing a Variable again with a known tag returns the existing object with its settings unchanged; a construction that fails its bound check can be retried, one that fails its constraint check leaves an unusable object behind.", "quantifier": "all construction histories", "why_tests_cant": "histories and crash points", "anchors": ["src/teflow/kappa.py:Variable.__new__", "src/teflow/kappa.py:Variable.__init__"]}
{"id": "C84", "title": "Fit evaluation synchronises everything", "statement": "_cal sets every free variable and then refreshes constrained ones; if the constrained variables are listed after those they depend on, every parameter set is consistent with the constraints afterwards.", "quantifier": "all dependency lists in order", "why_tests_cant": "induction over dependency chains", "anchors": ["src/teflow/kappa.py:BaseKappaModel._cal", "src/teflow/kappa.py:BaseKappaModel.fit"]}
{"id": "C85", "title": "Debye model: Matthiessen's rule", "statement": "The reported total rate is the sum of the mechanisms, accumulated spectral curves decrease as mechanisms are added and the last one belongs to the total rate, labels list the mechanisms included; duplicate mechanisms and an empty list are rejected.", "quantifier": "any number of mechanisms", "why_tests_cant": "unbounded lists", "anchors": ["src/teflow/kappa.py:KappaDebye"]}
{"id": "C86", "title": "Cumulative thermal conductivity over mean free path", "statement": "The cumulative curve is non-negative, non-decreasing in the mean free path, at most the total and equal to it for large mean free paths; it counts a bin only above the bin's upper edge.", "quantifier": "all bins and mean free paths", "why_tests_cant": "unbounded sums", "anchors": ["src/teflow/kappa.py:KappaDebye.cumulative_mfp_t"]}
{"id": "C87", "title": "Scattering rates", "statement": "All scattering rates are non-negative for physical parameters, non-decreasing in frequency, and the direct-coefficient form with the documented coefficient gives the same rate; the nanoparticle rate never exceeds its geometric limit.", "quantifier": "all frequencies, temperatures, parameters", "why_tests_cant": "continuum", "anchors": ["src/teflow/kappa.py:ThreePhonon", "src/teflow/kappa.py:PointDefect", "src/teflow/kappa.py:GrainBoundary", "src/teflow/kappa.py:Nanoparticles", "src/teflow/kappa.py:StackingFaults", "src/teflow/kappa.py:Dislocations", "src/teflow/kappa.py:CahillScattering"]}
{"id": "C88", "title": "Electron-phonon factor", "statement": "The computed R_ep equals the documented Ziman expression and lies strictly between 0 and 1.", "quantifier": "all frequencies, temperatures, parameters", "why_tests_cant": "continuum", "anchors": ["src/teflow/kappa.py:FreeElectrons._cal_Rep"]}
{"id": "C89", "title": "FreeElectrons parameter selection", "statement": "Non-zero coef and Rep are used as given; a zero coef or Rep is treated as missing and falls back to the formula (KeyError if its inputs were not given).", "quantifier": "all parameter sets", "why_tests_cant": "decision table", "anchors": ["src/teflow/kappa.py:FreeElectrons.coef", "src/teflow/kappa.py:FreeElectrons.Rep"]}
{"id": "C90", "title": "Klemens model", "statement": "The alloy conductivity never exceeds Kpure, is positive, is symmetric under x -> 1-x and falls as disorder increases.", "quantifier": "all parameters and compositions", "why_tests_cant": "continuum", "anchors": ["src/teflow/kappa.py:KappaKlemens.__call__", "src/teflow/kappa.py:KappaKlemens.u2"]}
{"id": "C91", "title": "Disorder parameter", "statement": "fluctuation returns the documented Gamma, Gamma_M, Gamma_S and configuration entropy for any numbers of species; Gamma is non-negative, vanishes when every sublattice has a single species (or equal masses), is unchanged by rescaling all masses and by un-normalised occupations when renorm is on, and rejects them when off.", "quantifier": "any number of sublattices and species", "why_tests_cant": "unbounded nested lists", "anchors": ["src/teflow/kappa.py:KappaKlemens.fluctuation"]}
{"id": "C92", "title": "Sound-velocity relations", "statement": "vs_to_gm equals the documented expression through Poisson's ratio; vs_mean lies between the two velocities and returns the common velocity when they agree.", "quantifier": "all velocities", "why_tests_cant": "continuum", "anchors": ["src/teflow/kappa.py:KappaDebye.vs_to_gm", "src/teflow/kappa.py:KappaDebye.vs_mean"]}
{"id": "C93", "title": "Substituted configuration", "statement": "In the substituted configuration every fitted variable's line becomes a constant with the fitted value (value*scale), other lines are unchanged, and a variable whose line cannot be found is an error.", "quantifier": "all files and variables", "why_tests_cant": "all texts", "anchors": ["src/teflow/kappa.py:parse_KappaFit"]}
{"id": "C94", "title": "Frequency unit", "statement": "The frequency unit option selects the factor by prefix (THz, normalised, reduced, meV), a number is used as is, anything else means rad/ps.", "quantifier": "all option strings", "why_tests_cant": "all strings", "anchors": ["src/teflow/kappa.py:parse_KappaFit"]}
{"id": "C95", "title": "Prediction range", "statement": "The automatic prediction range contains the data range, extends it by margin on both sides, and has the requested number of points.", "quantifier": "all data and margins", "why_tests_cant": "continuum", "anchors": ["src/teflow/kappa.py:parse_KappaFit"]}
{"id": "C96", "title": "Sub-model assembly", "statement": "Building a model from sections evaluates components recursively in order, resolves @references to variables, and fails on unknown types, empty values or unknown references; cyclic components never finish.", "quantifier": "all configurations", "why_tests_cant": "recursion over all configurations", "anchors": ["src/teflow/kappa.py:parse_KappaFit"]}
{"id": "C97", "title": "Reverse current-density scan obeys the Carnot limit", "statement": "cal_ZTdev-style efficiency never exceeds the Carnot efficiency as long as the relative current stays positive along the leg, and each segment of the leg balances heat in = heat out + electrical work.", "quantifier": "all temperature tables, property values and starting currents", "why_tests_cant": "induction over unbounded tables with real arithmetic", "anchors": ["src/teflow/ztdev.py:cal_Yita"]}
{"id": "C98", "title": "Weight factors of the generator", "statement": "The weight factors W_J and W_T of a build do not depend on the unit in which the Seebeck coefficient is given, while the alpha_i factors scale inversely with it (they are not dimensionless); for constant resistivity W_J is the mean temperature over the temperature difference.", "quantifier": "all data and rescalings", "why_tests_cant": "symmetry over the continuum", "anchors": ["src/teflow/engout.py:GenCore._build"]}
{"id": "C99", "title": "valuate", "statement": "GenLeg.valuate reports for each temperature above the first the maximum-power and maximum-efficiency state of one leg between the first temperature and it; GenPair.valuate combines the figure of merit and efficiency of the 'ZTengMax' device with the power factor and power of the 'PFengMax' device.", "quantifier": "all tables", "why_tests_cant": "unbounded tables, two-build histories", "anchors": ["src/teflow/engout.py:GenLeg.valuate", "src/teflow/engout.py:GenPair.valuate"]}
{"id": "C100", "title": "Hall function of the models", "statement": "For the parabolic and the Kane band the Hall integrand is Kstar times the squared transport function over charge times integrated density of states, Kstar being the anisotropy factor 3K(K+2)/(2K+1)^2.", "quantifier": "all energies, masses, gaps, anisotropies", "why_tests_cant": "identity over the continuum", "anchors": ["src/teflow/bandlib.py:APSSPB.hall", "src/teflow/bandlib.py:APSSKB.hall"]}
{"id": "C101", "title": "Hall concentration and mobility", "statement": "With a non-negative transport function the Hall concentration of a single band is at most the carrier concentration over Kstar and the Hall mobility at least Kstar times the drift mobility.", "quantifier": "all Fermi levels, temperatures and band parameters", "why_tests_cant": "continuum with an inequality between integrals", "anchors": ["src/teflow/bandlib.py:BaseBand.NH", "src/teflow/bandlib.py:BaseBand.UH"]}
{"id": "C102", "title": "Inversion of measured data", "statement": "If S, C, N, K were generated by a band of the model at some Fermi level and the root finder returns that Fermi level, valuate returns the generating band parameters (mass, weighted mobility, lattice conductivity).", "quantifier": "all bands and Fermi levels", "why_tests_cant": "inverse problem over the continuum", "anchors": ["src/teflow/bandlib.py:APSSPB.valuate", "src/teflow/bandlib.py:APSSKB.valuate"]}
{"id": "C103", "title": "Both forms of the carrier concentration agree", "statement": "For the parabolic, Kane and linear band the integral of the density of states with the Fermi function equals the integral of its antiderivative with the Fermi window, which is what the quadrature approximates.", "quantifier": "all Fermi levels, temperatures and band parameters", "why_tests_cant": "integral identity over the continuum", "anchors": ["src/teflow/bandlib.py:APSSPB.dos", "src/teflow/bandlib.py:APSSPB.idos", "src/teflow/bandlib.py:BaseBand.N"]}
{"id": "C104", "title": "Debye integrand", "statement": "The spectral conductivity of the Debye model is the documented integrand 1/3 v^2 g hbar omega df/dT times the relaxation time; the factor is positive, rises with temperature and stays below (and approaches) its classical Dulong-Petit value.", "quantifier": "all frequencies, temperatures and model parameters", "why_tests_cant": "continuum", "anchors": ["src/teflow/kappa.py:KappaDebye._spectral_factor", "src/teflow/kappa.py:KappaDebye.spectral"]}
{"id": "C105", "title": "Simple thermal conductivity models", "statement": "Slack's model falls as 1/T and notices an unknown coefficient model only when evaluated; its named coefficients are positive; the bipolar term rises with temperature; the power law passes through its ambient value at 300 K and falls for a negative exponent.", "quantifier": "all parameters and temperatures", "why_tests_cant": "continuum", "anchors": ["src/teflow/kappa.py:KappaSlack", "src/teflow/kappa.py:KappaBipolar", "src/teflow/kappa.py:KappaPowerLaw"]}
{"id": "C106", "title": "Syntax of fitted variables", "statement": "In [variables] the text 'initial ? scale <lower, upper>' declares a fitted variable with this start value, scale and bounds, with the defaults 1, 1, 0 and 1000 for missing parts; a start value outside the bounds is an error; a text without a question mark is a constant; malformed bounds are ignored.", "quantifier": "all texts and blanks", "why_tests_cant": "all strings", "anchors": ["src/teflow/kappa.py:parse_KappaFit"]}
{"id": "C107", "title": "Split prediction columns", "statement": "With splitkappa the prediction consists of the total, one accumulated column per scattering mechanism labelled by the joined mechanism tags, and one column per additional model; the total is the sum of the last accumulated column and the additional ones.", "quantifier": "all mechanism and model lists", "why_tests_cant": "list lengths", "anchors": ["src/teflow/kappa.py:parse_KappaFit", "src/teflow/interface.py:do_kappa"]}
{"id": "C108", "title": "Configuration sections to rates and conductivities", "statement": "A section of a configuration becomes the rate or conductivity of the documented formula with every key in its place: required keys as given, optional keys with the documented default, @references as the current value of the variable times its scale; a missing required key or an unknown one is an error. A Klemens model used as a component of a Debye model is evaluated at the temperature instead of the composition.", "quantifier": "all configurations and variable values", "why_tests_cant": "all texts and values; argument wiring", "anchors": ["src/teflow/kappa.py:parse_KappaFit", "src/teflow/kappa.py:EXECMETA"]}
{"id": "C109", "title": "Simulation of a band configuration", "statement": "tef-band without -m turns every band section into the band of its type (numbers given, 1 for those left out), reads offsets and types, pairs Fermi levels and temperatures (a single value serves for all of the other), finds Fermi levels from reference data if 'data @ property' is given, and writes for every property asked for the column of its values: the sums over the bands, each shifted by its offset and counted with the sign of its type. Command-line settings take precedence. Offsets can only be left out together with types, a LinearBand always fails, a short type list drops bands silently.", "quantifier": "all configurations, numbers of bands, points and properties", "why_tests_cant": "unbounded texts and lists over real arithmetic", "anchors": ["src/teflow/bandlib.py:parse_Bands", "src/teflow/bandlib.py:EXECMETA", "src/teflow/interface.py:do_band"]}
{"id": "C110", "title": "Experimental data through a single-band model", "statement": "tef-band -m writes for every row the data columns S T C N K the file has or allows to derive (with their signs, unless --bare), followed by the properties the chosen model derives from the magnitudes of the data, or those named by -p in the order of their names; the signs of the data do not matter for the derived columns, every row has the same columns; it stops with the documented error without a positive gap for the Kane model (before reading the file) and when required data are missing, naming exactly these.", "quantifier": "all datasets, options and rows", "why_tests_cant": "decision table over all files and options with real data", "anchors": ["src/teflow/interface.py:do_band", "src/teflow/bandlib.py:EXECMETA"]}
{"id": "C111", "title": "Tables written can be read back", "statement": "A table written by any of the commands (four decimals, say, as '%.4f') is read back by np.loadtxt, by TEdataset.from_file and by tef-refine with the same rows and columns in the same order, each number within half a unit of its last decimal and with its sign; writing the numbers read gives the same file. Without --bare a title line and a line of labels (two blanks between the names, the keys of the dictionary unless others are given) precede, each behind a hash. With --headers the label line has no hash: TEdataset.from_file still reads the file, np.loadtxt (used by the other commands) raises ValueError. tef-format -d, which splits at tabs, semicolons and commas, loses every number of such a file.", "quantifier": "all tables with at least one column, all numbers, all numbers of decimals, all labels without line breaks", "why_tests_cant": "round trip over all numbers (rounding, signs, zeros) and all table sizes and header options", "anchors": ["src/teflow/interface.py:_to_file", "src/teflow/loader.py:TEdatasetBase.parse_datafile", "src/teflow/loader.py:TEdataset.from_file", "src/teflow/loader.py:TEdataset2.from_file"]}
{"id": "C112", "title": "tef-engout from table to table", "statement": "tef-engout writes one row for every data row but the first: cold side (first temperature), hot side, engineering power factor and figure of merit, largest power, efficiency. With -R the resistivities of the file are integrated as they are. With -p the leg with the greater mean Seebeck coefficient is the p-type one (the first if equal); exchanging the columns of the legs, or negating both Seebeck coefficients, does not change the table. ValueError for fewer than 4 (7 with -p) columns, for a length that is not positive, and for a single leg with more than 4 columns (despite the message 'at least 4'); IndexError for a single row; no other failure.", "quantifier": "all tables, all lengths, both device types, with and without -R", "why_tests_cant": "the table must be independent of the order of the legs for all inputs; all widths and lengths", "anchors": ["src/teflow/interface.py:do_engout", "src/teflow/engout.py:GenPair.valuate", "src/teflow/engout.py:GenLeg.valuate"]}
{"id": "C113", "title": "tef-ztdev from table to table", "statement": "tef-ztdev writes one row per data row: first temperature, temperature, efficiency at the optimal current, device ZT of the two; efficiency and ZT of the first row are zero, columns behind the fourth do not matter. With -y every row (Tc, Th, efficiency, ...) gets its own device ZT, NaN where one of the three is. The table written by the first form, fed back with -y, is written again unchanged. IndexError for an empty file (ValueError with -y), ValueError for fewer than 4 (3) columns.", "quantifier": "all tables and all outcomes of the search for the optimal current", "why_tests_cant": "idempotence over all tables, including NaN efficiencies", "anchors": ["src/teflow/interface.py:do_ztdev", "src/teflow/ztdev.py:valuate", "src/teflow/ztdev.py:cal_ZTdev"]}
{"id": "C114", "title": "Runs of tef-interp, one after the other", "statement": "tef-interp takes its sampling points from the first column of the output file if there is one (the number of points and the range, even a malformed one, are then ignored), otherwise from the range or the number of points; it writes the sampling points and the interpolation of every column at them, to four decimals. A run changes only the output file, and not even that if it fails. Repeating a run (output file other than the input file) changes nothing from the third run on, whatever happened before. With --bare the sampling points are not written and the next run samples at the first data column, losing the results. A missing input, a table of one column or of one row is refused.", "quantifier": "all files, options, interpolation methods and numbers of runs", "why_tests_cant": "histories of runs of any length over all file contents", "anchors": ["src/teflow/interface.py:do_interp", "src/teflow/interface.py:_to_file", "src/teflow/mathext.py:vinterp"]}
{"id": "C115", "title": "Runs of tef-mixing", "statement": "tef-mixing writes a table of the layout of its inputs (at least two rows and columns), each number the weighted sum of the numbers at its place times the scale (or over the sum of the weights), to four decimals. Inputs that are one row or one column are not told apart: the output file is a column always, a row comes out transposed and is mixed with columns without complaint; without an output file they are a TypeError. Single numbers fail and leave the output file empty. Different layouts and missing files are refused without touching a file.", "quantifier": "all files, weights and scales", "why_tests_cant": "all table sizes and numbers of files", "anchors": ["src/teflow/interface.py:do_mixing", "src/teflow/mathext.py:mixing"]}
{"id": "C116", "title": "The text of an alloy", "statement": "Alloy.from_string reads a flat formula (element symbols and compositions in parentheses, each with an optional plain decimal amount, separated by nothing, blanks, underscores or backslashes) as one site per different part in order of first appearance, holding the composition of the part times the last amount written for it, under the names given or A, B, C, ... (at most 26). Alloy.to_string (styles join and split) followed by from_string with the same names gives the same alloy, if the sites have different compositions and the numbers are printed exactly. A part that cannot be read or leaves its stoichiometry open (FeCoNi) is a ValueError, one without atoms a ZeroDivisionError. The search for groups always ends.", "quantifier": "all alloys, all flat formulas, all name lists and flags", "why_tests_cant": "round trip and parsing over unbounded formulas; termination of a rewriting loop on all texts", "anchors": ["src/teflow/loader.py:Alloy.to_string", "src/teflow/loader.py:Alloy.from_string", "src/teflow/loader.py:Alloy.from_compounds"]}
{"id": "C117", "title": "Alloy texts that do not come back", "statement": "Limits of C116: two sites of equal composition are written as one (the atoms of the earlier are lost); with omit_one=False a site X of n atoms is written X1n and read back as that longer number; texts in OriginLab style are refused (ZeroDivisionError) although from_string prepares for them; lower-case letters after a group are ignored, or an IndexError if they start with x.", "quantifier": "all such alloys and texts", "why_tests_cant": "over all alloys and texts", "anchors": ["src/teflow/loader.py:Alloy.to_string", "src/teflow/loader.py:Alloy.from_string"]}
{"id": "C118", "title": "Runs of tef-format, one after the other", "statement": "tef-format writes a temperature column followed by those of conductivity, Seebeck coefficient and thermal conductivity that the data have or allow to derive (the conductivity as 1E4/R or 1.602176634 N U of one block), each interpolated at the temperatures with its own method, to four decimals; with -c the eleven columns T C S K L Ke Kp PF ZT ZTave CF, or a failure if one of C, S, K is missing. With -d every property has as many temperatures as values and all are finite. The temperatures are the first column of the output file if there is one (step, maximum and --no-rt are ignored then), otherwise a series up to --tmax or the largest temperature of the data. A run changes only the output file (the given one, or base_suffix.txt in the current directory for an input dir/base.ext), and nothing if it fails; repeated runs settle after the second. With --headers the second run always fails with ValueError. An instrument file on the command line is read with or without 'file:'; but --CTA for a configuration with ZEM (or the reverse) is a ValueError. A given L column is not used.", "quantifier": "all files, options, interpolation methods and numbers of runs", "why_tests_cant": "histories of runs of any length over all file contents and options", "anchors": ["src/teflow/interface.py:do_format", "src/teflow/interface.py:_to_file", "src/teflow/loader.py:TEdataset2.from_file", "src/teflow/loader.py:parse_TEfile", "src/teflow/mathext.py:vinterp"]}
{"id": "C119", "title": "Runs of tef-refine and tef-mixing --extend on files", "statement": "A run of tef-refine changes only its output file (nothing if the input is missing or a column is not a number). Without -c it always succeeds and np.loadtxt makes of the output exactly what it makes of the input. With -c the output holds the picked cells of the rows before the first row lacking a column, then IndexError; refining in place therefore destroys the rest of the data. Refined in place without -c, all runs after the first leave the file as it is. tef-mixing --extend changes only its output file; the numbers read from the output are the tables of the inputs side by side, as many rows as the shortest (with --padding: as the longest, filled up). With --raw-extend a comment in one input hides the columns of all later inputs in that row. With the output on the first of two inputs every run appends the columns of the second once more.", "quantifier": "all files, options, column lists and numbers of runs", "why_tests_cant": "histories of runs of any length, crash points, all file contents", "anchors": ["src/teflow/interface.py:do_refine", "src/teflow/interface.py:do_mixing"]}
{"id": "C120", "title": "Runs of tef-cutoff on files", "statement": "A run of tef-cutoff changes only its output file, and nothing if it fails; it succeeds exactly if the input is a table of numbers, the method is a known one (any case of letters) and all columns listed exist. Without -m every run fails with ValueError although the help names a default. Read back, the output has the rows of the input with the columns asked for multiplied once by the factor at the first cell, the others unchanged, to four decimals; with --bare only those columns, in the order asked for. Onto another file, a second run changes nothing; in place every run multiplies once more. With smoothstep, rows below the transition never change (to four decimals), rows above it are zero, and the factor falls from 1 to 0 through 1/2 at the threshold.", "quantifier": "all files, options, tables and numbers of runs", "why_tests_cant": "histories of runs of any length, all tables and column lists", "anchors": ["src/teflow/interface.py:do_cutoff", "src/teflow/mathext.py:smoothstep", "src/teflow/mathext.py:fermidirac"]}
{"id": "C121", "title": "Reading configuration files", "statement": "A configuration file showing sections with options, with any comments, empty lines, indentation and values over several lines, is read as exactly those sections and options in that order: names keep their case and inner spaces, a value ends at a comment that follows a blank and nowhere else, the first = separates name and value, values over several lines keep their lines and inner empty lines. A file cannot be read in two ways. Comment lines may be added or removed anywhere. A file with the same section or option twice, with a line outside any section, or with a line at the margin that is neither a header nor has a = is refused. Options missing in a section come from [DEFAULT].", "quantifier": "all files, names, values, comments and layouts", "why_tests_cant": "files of any length and layout", "anchors": ["src/teflow/utils.py:CfgParser", "src/teflow/kappa.py:parse_KappaFit", "src/teflow/bandlib.py:parse_Bands"]}
{"id": "C122", "title": "The substituted configuration reads back", "statement": "Whatever configuration file (any layout, comments, order) is fitted, the configuration that tef-kappa writes with the fitted values can be read: it shows the same sections and options in the same order, with the value of every fitted variable replaced by the number written and nothing else changed; no variable is left to fit; and the model it describes has the thermal conductivity of the fitted model at the written values. Exceptions: bounds on a line of their own make the new file unusable, a value line that looks like a section header makes the substitution fail.", "quantifier": "all configuration files with one-line variable declarations, all values, all models", "why_tests_cant": "files of any length and layout; round trip through two parsers", "anchors": ["src/teflow/kappa.py:parse_KappaFit", "src/teflow/utils.py:CfgParser", "src/teflow/interface.py:do_kappa"]}
{"id": "C123", "title": "A fit leaves the model at the last point tried", "statement": "Whatever the optimiser does, a fit starts at the current values of the free variables listed, in order, within their bounds, and every question of the optimiser is answered by the model with these values and up-to-date constrained variables. Afterwards the free variables hold the values of the last question put (within the bounds), not the values returned; the model gives exactly the last answer at the data; all parameter sets of the listed variables agree; nothing else changes, also if the fit fails; a second fit starts at the last question. A start value or bounds given, or something that is not a variable, is a ValueError without effect; with nothing to fit the model is evaluated.", "quantifier": "all optimisers (any questions depending on the answers, any result or error), all sets of variables with constraints, all models and data", "why_tests_cant": "the optimiser's questions, their number and order are unknown and depend on the answers", "anchors": ["src/teflow/kappa.py:BaseKappaModel.fit", "src/teflow/kappa.py:BaseKappaModel._cal", "src/teflow/kappa.py:Variable"]}
{"id": "C124", "title": "Whole runs of tef-kappa", "statement": "A run of tef-kappa that fails (file missing, configuration wrong, variable out of bounds, no points) leaves every file as it was. A successful run writes the main table, each detail table and the substituted configuration for which it has results, and no other file; a detail file of an earlier run is never removed. After an interrupted run, a run from the start ends in exactly the same files as an undisturbed one; a repeated run changes nothing. A setting on the command line has the same effect as the same setting in the section entry. With -Q there is only the main table with one column. The prediction belongs to the configured model at the values the optimiser asked for last, and the columns read back are the predicted ones. The substituted configuration can be run again: it fits nothing, predicts with the fitted values as written, and needs its points given.", "quantifier": "all configuration texts, all options, all files before the run, all optimisers and number formats", "why_tests_cant": "a run depends on the whole text of the configuration, on the dialogue with the optimiser and on the files left by earlier or interrupted runs", "anchors": ["src/teflow/interface.py:do_kappa", "src/teflow/kappa.py:parse_KappaFit", "src/teflow/utils.py:CfgParser"]}
{"id": "C125", "title": "Whole runs of tef-band", "statement": "A run of tef-band that fails (no input, a broken configuration, no gap for the Kane model or one that is not positive, required data missing) leaves every file as it was; the error names the missing data. A successful run writes one file, named on the command line or after the input, and repeating it, also after an interruption that left anything in the output file, ends in the same files; without a name the output is never the input. A setting on the command line (the last one counts) has the same effect as the same setting in the section entry. The output of a simulation has one column per property asked for, in this order, and one line per point with the sums over the bands. The output of a model run has one line per row of the data file: the data, and what the model says about them; comments, blank lines and ignored columns do not count, conductivity and carrier density are derived from resistivity and mobility where needed. Read again, the output gives the columns.", "quantifier": "all configuration texts, data files, options, files before the run, solvers and number formats", "why_tests_cant": "a run depends on the whole text of its input, on the command line and on the files left by earlier or interrupted runs", "anchors": ["src/teflow/interface.py:do_band", "src/teflow/bandlib.py:parse_Bands", "src/teflow/bandlib.py:EXECMETA", "src/teflow/loader.py:TEdataset", "src/teflow/interface.py:_to_file", "src/teflow/interface.py:_StoreDict"]}
{"id": "C126", "title": "Numbers written and read again", "statement": "A number written as %.6E or %.9g (any number of digits) and read by float comes back with its sign as the nearest number with that many significant digits, of two equally near ones the even one, hence within half a unit of the last digit; a number with no more digits comes back unchanged; the order of numbers is kept; writing again gives the same text. Tables written with %.6E read back with this accuracy. A compound written by to_string and read by from_string keeps its elements and their order; amounts that are zero or from 1e-4 to 999999999 come back with nine significant digits. A smaller or greater amount is written with an exponent that from_string does not read: it comes back as a number between 1 and 10. The sign of a negative amount is lost.", "quantifier": "all numbers, numbers of digits, tables and compounds", "why_tests_cant": "all rational numbers and formats; ties, carries and exponents", "anchors": ["src/teflow/interface.py:do_band", "src/teflow/loader.py:Compound.to_string", "src/teflow/loader.py:Compound.from_string", "src/teflow/kappa.py:parse_KappaFit"]}
{"id": "C127", "title": "Distribution functions of a multi-band model", "statement": "The functions dos, trs and hall of a multi-band model add up those of its bands, each taken at the depth of the energy below (valence) or above (conduction) the band edge, so only the bands an energy lies in count. Its transport coefficients are those of these functions as one continuum: the conductivity is the integral of trs times the Fermi window over all energies, Seebeck and Lorenz number come from its first and second moments with the single sign convention of electrons, and the carrier concentration is the integral of dos of the conduction bands times f plus that of the valence bands times 1-f. hall adds all bands without sign while the Hall coefficient counts electrons negative; hall fails exactly if a band has no Hall function. Parabolic and Kane bands meet the assumptions; a linear band does not: it counts at every energy.", "quantifier": "all lists of bands with arbitrary functions vanishing at the edge, signs, offsets, Fermi levels, temperatures, energies and moments", "why_tests_cant": "the statement compares integrals over the real line of arbitrary functions", "anchors": ["src/teflow/bandlib.py:MultiBands.dos", "src/teflow/bandlib.py:MultiBands.trs", "src/teflow/bandlib.py:MultiBands.hall", "src/teflow/bandlib.py:MultiBands._K_n", "src/teflow/bandlib.py:MultiBands._N", "src/teflow/bandlib.py:MultiBands._CCRH"]}
{"id": "C128", "title": "Mapping of scattered data", "statement": "mapping meets data at distinct places exactly when regular is 0, for both kernels (names in any case) and also when values of x or y repeat; x and y play the same role, another unit or origin of a coordinate with its scale changes nothing, predictions are linear in the data and independent of what else is asked for; log_p is the logarithm of a normal density with the kernel matrix as covariance that integrates to one over all data values. A regular number is added to all matrix entries, so that it only shifts all values at the data points by the same amount and cannot make repeated places work; a vector makes the result depend on the order. interp_gpr puts it on the diagonal, and its prediction is the curve of least cost between distance to the data and size.", "quantifier": "all data, queries, scales, regularisations and kernel names", "why_tests_cant": "positive definiteness and integrals over all data of any size", "anchors": ["src/teflow/mathext.py:mapping", "src/teflow/mathext.py:_kernel_rbf", "src/teflow/mathext.py:_kernel_dfx", "src/teflow/mathext.py:interp_gpr"]}
{"id": "C129", "title": "The optimum of a parabolic band", "statement": "The power factor of a parabolic band has exactly one maximum as a function of the Fermi level, at one reduced level for all bands and temperatures; EFopt(T) is within 1.3e-5 kB T of it and PFmax within 2.7 parts per million of the maximal value; the conductivity is sigma0*ln(1+exp(EF/kT)); every positive conductivity and every Seebeck coefficient of the right sign belongs to exactly one Fermi level.", "quantifier": "all parabolic bands, Fermi levels and temperatures", "why_tests_cant": "a maximum and uniqueness over a continuum; constants of the code against integrals", "anchors": ["src/teflow/bandlib.py:APSSPB.PFmax", "src/teflow/bandlib.py:APSSPB.EFopt", "src/teflow/bandlib.py:APSSPB.trs", "src/teflow/bandlib.py:BaseBand.PF", "src/teflow/bandlib.py:BaseBand.solve_EF"]}
{"id": "C130", "title": "Band models in SI units", "statement": "idos counts the states inside the sphere of the documented dispersion (parabolic, Kane, linear) in SI units; hall is Kstar times mobility times conductivity with the mobility that belongs to trs and dos; from_DP and from_UWT give the documented sigma0 in S/cm; the unit constants of the band classes and of RSPB are the documented combinations of the physical constants.", "quantifier": "all parameters and energies", "why_tests_cant": "formulas with unit conversions over continua", "anchors": ["src/teflow/bandlib.py:APSSPB.idos", "src/teflow/bandlib.py:APSSKB.idos", "src/teflow/bandlib.py:LinearBand.idos", "src/teflow/bandlib.py:APSSPB.hall", "src/teflow/bandlib.py:APSSKB.hall", "src/teflow/bandlib.py:APSSPB.from_DP", "src/teflow/bandlib.py:APSSPB.from_UWT", "src/teflow/bandlib.py:RSPB"]}
{"id": "C131", "title": "The gap of a Kane band", "statement": "At the same masses, scattering prefactor, Fermi level and temperature, a Kane band with a smaller gap has a strictly smaller conductivity, mobility, thermopower (in magnitude order of its sign) and Hall term and a strictly larger carrier concentration, for carriers of either sign; the parabolic band lies strictly beyond all of them; and as the gap grows every property of the Kane band tends to that of the parabolic band.", "quantifier": "all parameters, gaps, Fermi levels, temperatures, signs and properties", "why_tests_cant": "inequalities and a limit over continua, for the quadrature that the program uses", "anchors": ["src/teflow/bandlib.py:APSSKB", "src/teflow/bandlib.py:APSSPB", "src/teflow/bandlib.py:BaseBand"]}
{"id": "C132", "title": "Multi-band models inside multi-band models", "statement": "A MultiBands object can be appended to another one as a band, to any depth. Concentration and conductivity are then the sums over all single bands, each at the Fermi level measured from its edge through all levels; but the contribution of a band to the Seebeck coefficient has the sign of its carriers only under an odd number of levels and the opposite sign under an even number, and its Hall term the sign of the innermost level. In particular a model appended to an empty one as a conduction band at an offset keeps concentration, conductivity, Lorenz number and Hall coefficient (shifted by the offset) and reverses its Seebeck coefficient, also that of the appended object itself; as a valence band all is evaluated at the mirrored Fermi level. Without nesting the model is the flat one.", "quantifier": "all trees of bands, offsets, types, Fermi levels and temperatures", "why_tests_cant": "all depths and shapes of nesting", "anchors": ["src/teflow/bandlib.py:MultiBands.append", "src/teflow/bandlib.py:MultiBands._K_n", "src/teflow/bandlib.py:MultiBands._CCRH"]}
{"id": "C133", "title": "What the text of a model or data set tells", "statement": "str() of a band model lists its bands, nested models included, so that two models have the same text exactly if they have the same classes, order, nesting, valence/conduction marks and, to six significant digits, the same parameters and offsets; with numbers of at most six digits the text determines the model. The text has one line per band and appending a band appends its line. str() of a data set determines the names, order, lengths and (TEdataset2) temperature columns of its properties.", "quantifier": "all models of any size and nesting, all parameters, all data sets with names a group text can give", "why_tests_cant": "unbounded nesting; injectivity of a text format", "anchors": ["src/teflow/bandlib.py:MultiBands.__str__", "src/teflow/bandlib.py:APSSPB.__str__", "src/teflow/bandlib.py:APSSKB.__str__", "src/teflow/bandlib.py:LinearBand.__str__", "src/teflow/loader.py:TEdataset.__str__", "src/teflow/loader.py:TEdataset2.__str__"]}
{"id": "C134", "title": "Dot access to dictionaries", "statement": "For an AttrDict (also ListDict, Compound, Alloy, option dictionaries), after any history of item and attribute assignments and deletions: d.name reads d['name'] (same value or KeyError) unless the class uses the name or it was assigned with a dot; assigning with a dot never changes the entries but hides the entry from dot access from then on; hasattr never answers no; for every element symbol and site name dot access to compounds and alloys works.", "quantifier": "all histories of item and attribute operations, all names, all entries", "why_tests_cant": "unbounded histories of interleaved item and attribute operations", "anchors": ["src/teflow/utils.py:AttrDict.__getattr__", "src/teflow/loader.py:Compound", "src/teflow/loader.py:Alloy"]}
{"id": "C135", "title": "A leg with constant properties has the known device ZT", "statement": "For a table of which conductivity, Seebeck coefficient and thermal conductivity are the same in all rows, the scan over the relative current gives the closed formula at every temperature (NaN beyond the limiting current), its efficiency never exceeds the textbook efficiency of Z times the mean temperature and reaches it at a known current inside the searched interval; with a search that finds the best current the device ZT is Z times the mean temperature for every number of rows, and tef-ztdev and tef-engout report the same efficiency. The searched interval contains currents with NaN efficiency whenever 2*Z*(Th-Tc) > 1.", "quantifier": "all constant materials, tables of any length, currents", "why_tests_cant": "an optimum over all currents and any number of rows; tests can only sample both", "anchors": ["src/teflow/ztdev.py:cal_Yita", "src/teflow/ztdev.py:optim_u", "src/teflow/ztdev.py:valuate", "src/teflow/engout.py:GenLeg.valuate"]}
{"id": "C136", "title": "References in configuration files", "statement": "In configuration files $$ stands for a dollar sign, ${name} for the value of that option in the same section (or in [DEFAULT]) and ${section:name} for that of another section. A value is read as the text in which all references are replaced, each value being read in the section in which it is asked for; one from [DEFAULT] therefore sees the options of the section using it. This holds up to ten levels of values containing dollar signs; deeper ones, and options that refer to each other in a circle, cannot be read. A value without dollar signs, hence a file without them, is read as it stands; every text can be written by doubling its dollar signs. A reference within a section may be replaced by the raw value. References to missing options, with several colons, unclosed or empty ones and single dollar signs are errors. A setting on the command line is taken over for its option alone, or refused with ValueError if it has a dollar sign that is neither doubled nor begins a reference.", "quantifier": "all configurations, values, nestings of references and settings", "why_tests_cant": "a statement about all texts and all graphs of references between options", "anchors": ["src/teflow/utils.py:CfgParser.__init__", "src/teflow/kappa.py:parse_KappaFit", "src/teflow/bandlib.py:parse_Bands", "src/teflow/loader.py:parse_TEfile"]}
{"id": "C137", "title": "Runs of tef-ztdev and tef-engout on files", "statement": "A run of `tef-ztdev` or `tef-engout` changes no file but its output file, and none if it fails (missing input: IOError). The output reads back as the computed table to four decimals under two comment lines (title and column names; none with `--bare`): `tef-ztdev -y` needs at least one row and three columns and writes Tc, Th, Yita of every row and the device ZT these three give (NaN if one of them is); `tef-ztdev` writes a row per row, Tc the temperature of the first row; `tef-engout` succeeds on a table of numbers exactly if it has two rows or more, the length is positive and there are four columns (leg) or at least seven (pair), and writes six columns and a row per row but the first. Repeating a run onto another file changes nothing; the default output is never the input. `tef-ztdev -y` in place settles after two runs, its first three columns after one; `tef-ztdev` followed by `tef-ztdev -y` keeps Tc, Th and Yita. `tef-engout` in place destroys its input and every further run fails with ValueError.", "quantifier": "all file systems, all tables, all options, any number of runs, any writing/reading of numbers that is correct to four decimals", "why_tests_cant": "Tests run a command once on one sample file; that repeated and chained runs settle, and that nothing else is ever touched, concerns all files and all sequences of runs.", "anchors": ["src/teflow/interface.py:do_ztdev", "src/teflow/interface.py:do_engout", "src/teflow/interface.py:_suffixed"]}
{"id": "C138", "title": "Documented formulas of the generator", "statement": "For any material, the best efficiency `GenLeg` reports is the documented `eta = eta_c (sqrt(1+ZTeng a1/eta_c)-1)/(a0 sqrt(1+ZTeng a1/eta_c)+a2)` with `a_k` the modified temperatures (hot, mean, cold for constant properties) over `Th`; the heat flow is the documented `A/L <K> + I Th S(Th) - W_J I^2 R - W_T I <tau>` and the power `Voc^2/R m/(1+m)^2` at load `m R`; the reported `W_T` is the documented double integral of the Thomson coefficient. Deviations: the reported `W_J` exceeds the documented one (with which the heat flow holds) by `Tc/(Th-Tc)`, and the reported `alpha_k` are the documented ones times `Th/S(Th)`, so that the documented formula with the reported coefficients gives the reported efficiency only if `S(Th)` is the number `Th`, and less if it is smaller.", "quantifier": "all integrals (hence all property tables and temperatures), all geometries, currents and loads; for the double integrals all continuous resistivities and continuously differentiable Seebeck coefficients", "why_tests_cant": "Identities between reported quantities for every material; a test compares numbers for one material, and the reported weight factors enter no other output.", "anchors": ["src/teflow/engout.py:GenCore._get_mdfs", "src/teflow/engout.py:GenCore._get_wgts", "src/teflow/engout.py:GenCore._get_prfs", "src/teflow/engout.py:BaseDevice", "docs/usage/engineering_output.rst"]}
{"id": "C139", "title": "Runs of the tools at the same time", "statement": "Let several runs of the command line tools (`tef-interp`, `tef-mixing`, `tef-refine`, `tef-cutoff`, `tef-ztdev`, `tef-engout`, `tef-format`, `tef-band`, `tef-kappa`) be started in one directory, none writing a file that another reads or writes. Then for every interleaving of their single reads and writes, each run that ends ends with the same result, and leaves the same output files, as if it had run alone, even if other runs are still at work or were killed; when all have ended the files are as after running them one by one in any order; every run ends after a number of its own steps that depends on its files only. At any moment an output file is as before or holds the beginning of what the run writes to it; other files are unchanged. Runs that do not read their own output files can be killed at any moment and repeated, and the files are then as if nothing had happened.", "quantifier": "all numbers and kinds of runs, all contents of the directory, all schedules (step by step, down to single characters), all moments at which runs are killed, all orders of the sequential runs", "why_tests_cant": "The interleavings and crash points cannot be enumerated by tests, and a test run hardly ever hits the window between opening and writing an output file.", "anchors": ["src/teflow/interface.py:do_interp", "src/teflow/interface.py:do_mixing", "src/teflow/interface.py:do_refine", "src/teflow/interface.py:do_cutoff", "src/teflow/interface.py:do_ztdev", "src/teflow/interface.py:do_engout", "src/teflow/interface.py:do_format", "src/teflow/interface.py:do_band", "src/teflow/interface.py:do_kappa", "src/teflow/interface.py:_to_file"]}
{"id": "C140", "title": "The Lorenz number of a parabolic band", "statement": "For a parabolic band with acoustic-phonon scattering (APSSPB), at every temperature and Fermi level, the Lorenz number L lies strictly between 2 (kB/e)^2 and (pi^2/3) (kB/e)^2 (1.485 and 2.4431 in 1E-8 W.Ohm/K^2). It rises strictly with the Fermi level, tends to the two bounds far below and far above the band edge and takes every value between them at exactly one Fermi level. L is a function of the size of the Seebeck coefficient alone, whatever the masses, prefactors, kind of carriers and temperatures, and the larger Seebeck coefficient goes with the smaller L (so the L valuate deduces does not depend on whether temperatures are given). The electronic thermal conductivity rises strictly with the Fermi level and lies strictly between the Wiedemann-Franz values of these two bounds.", "quantifier": "all parabolic bands, Fermi levels, temperatures, both kinds of carriers, all pairs of these", "why_tests_cant": "Strict bounds and monotony over two continua (and limits at infinity); tests sample finitely many levels, and the bounds are approached so closely that rounding hides a violation.", "anchors": ["src/teflow/bandlib.py:APSSPB", "src/teflow/bandlib.py:BaseBand.L", "src/teflow/bandlib.py:BaseBand.Ke", "src/teflow/bandlib.py:BaseBand.S", "src/teflow/bandlib.py:APSSPB.valuate"]}
{"id": "C141", "title": "The transport properties of a linear band", "statement": "For a LinearBand at every temperature: the conductivity rises strictly with the Fermi level but stays below sigma0, and takes each value between 0 and sigma0 at exactly one level (so solve_EF('C', value, T) has no solution from sigma0 on); the Seebeck coefficient has the sign of the carriers, falls strictly in size, and takes each non-zero value of that sign at exactly one level; the Lorenz number rises strictly from (kB/e)^2 to (pi^2/3)(kB/e)^2 and lies strictly between; the power factor has exactly one maximum, at one reduced level between 1.14 and 1.15 kB T outside the band for all linear bands and temperatures, with a Seebeck coefficient between 196 and 199 uV/K there.", "quantifier": "all linear bands, Fermi levels, temperatures, both kinds of carriers", "why_tests_cant": "Uniqueness of solutions and of a maximum, and strict bounds, over a continuum of levels; tests sample finitely many.", "anchors": ["src/teflow/bandlib.py:LinearBand", "src/teflow/bandlib.py:BaseBand.solve_EF", "src/teflow/bandlib.py:BaseBand.L", "src/teflow/bandlib.py:BaseBand.S", "src/teflow/bandlib.py:BaseBand.PF"]}
{"id": "C142", "title": "The Fermi level of a given carrier concentration", "statement": "For a parabolic, Kane or linear band with positive mass, gap and velocity at every temperature, N is positive, rises strictly with the Fermi level and takes every positive value at exactly one level; the same holds for a MultiBands model whose bands all carry electrons, and for one whose bands all carry holes with N falling. With bands of both kinds N counts electrons and holes together: it has a positive minimum at one level, falls strictly below and rises strictly above it, so that solve_EF('N', value, T) has no solution below the minimum and exactly two, one on either side, for every value above it. For two mirrored bands the minimum is half-way between the edges, and the Seebeck coefficient vanishes there.", "quantifier": "all numbers of bands of the three kinds, offsets, carrier signs, temperatures, Fermi levels, concentrations", "why_tests_cant": "Existence, uniqueness and the number of solutions over a continuum; a solver run in a test finds one level and says nothing about others or about values without one.", "anchors": ["src/teflow/bandlib.py:BaseBand.N", "src/teflow/bandlib.py:BaseBand.solve_EF", "src/teflow/bandlib.py:MultiBands._N", "src/teflow/bandlib.py:APSSPB.idos", "src/teflow/bandlib.py:APSSKB.idos", "src/teflow/bandlib.py:LinearBand.idos"]}
{"id": "C143", "title": "The transport properties of a Kane band as functions of the Fermi level", "statement": "For an APSSKB band with positive sigma0 and gap at every temperature: the conductivity rises strictly with the Fermi level from 0 towards the limit 3*sigma0*Eg/(4*kB*T), which it never reaches, and takes every value in between at exactly one level; the Seebeck coefficient has the sign of the carriers, its size falls strictly from infinity in the gap to 0 in the band, always exceeds the distance to the edge over e*T, and every non-zero value of the right sign belongs to exactly one level, so that solve_EF('S', value, T), on which APSSKB.valuate rests, has one solution.", "quantifier": "all Kane bands, Fermi levels, temperatures, Seebeck values, both kinds of carriers", "why_tests_cant": "Existence and uniqueness of solutions of an integral equation over a continuum of levels, gaps and temperatures.", "anchors": ["src/teflow/bandlib.py:APSSKB.trs", "src/teflow/bandlib.py:APSSKB.valuate", "src/teflow/bandlib.py:BaseBand.solve_EF", "src/teflow/bandlib.py:BaseBand.S", "src/teflow/bandlib.py:BaseBand.C"]}
{"id": "C144", "title": "Electrons and holes are treated alike", "statement": "If a MultiBands model holds the bands of another model reflected at an energy c (the same integrals, the other kind of carriers, the edge at 2c minus the offset), in any order, then each of its sixteen properties at c+x equals that of the other model at c-x, with the opposite sign for K_1, CS, S and the Hall properties, and fails where the other fails; Kbip is the same. So a model that is its own mirror image has even and odd properties about its mid-gap, where the Seebeck and Hall coefficients vanish.", "quantifier": "all models of any number of bands with arbitrary integrals (exact or by quadrature), reflections, Fermi levels, temperatures, properties", "why_tests_cant": "A symmetry between two models for every number and order of bands and every Fermi level.", "anchors": ["src/teflow/bandlib.py:MultiBands._N", "src/teflow/bandlib.py:MultiBands._K_n", "src/teflow/bandlib.py:MultiBands._CCRH", "src/teflow/bandlib.py:MultiBands.Kbip", "src/teflow/bandlib.py:BaseBand"]}
{"id": "C145", "title": "The Seebeck coefficient of a model of several bands", "statement": "For MultiBands models of parabolic, Kane and linear bands with exact integrals: with bands of both kinds the Seebeck coefficient is continuous in the Fermi level, vanishes far on either side and has a largest size; solve_EF('S', value, T) has no solution beyond it, and when some level e reaches a value, every value of the same sign and smaller size is reached both below and above e, so the equation has at least two solutions and the initial level selects one. With bands of one kind S has the sign of the carriers, grows without bound in the gap, vanishes far in the bands and takes every value of that sign.", "quantifier": "all lists of Spb/Skb/Linear bands with positive conductivity prefactors (and Kane gaps), signs, offsets, temperatures, Fermi levels", "why_tests_cant": "The number of solutions of an equation over all real Fermi levels, for every list of bands.", "anchors": ["src/teflow/bandlib.py:BaseBand.S", "src/teflow/bandlib.py:BaseBand.solve_EF", "src/teflow/bandlib.py:MultiBands._K_n", "src/teflow/bandlib.py:APSSPB._K_n", "src/teflow/bandlib.py:APSSKB", "src/teflow/bandlib.py:LinearBand"]}
{"id": "C146", "title": "The conductivity of a model of several bands", "statement": "For MultiBands models of parabolic, Kane and linear bands with exact integrals: with bands of one kind the conductivity is positive, rises strictly with the Fermi level for electrons and falls strictly for holes, and every value between 0 and a value taken belongs to exactly one level (every positive value, if a parabolic band is among them). With bands of both kinds it stays above a positive value, below which solve_EF('C', value, T) has no solution; if all bands are parabolic it has exactly one minimum and every larger value belongs to exactly two levels, one on either side.", "quantifier": "all lists of Spb/Skb/Linear bands with positive conductivity prefactors (and Kane gaps), signs, offsets, temperatures, Fermi levels, values", "why_tests_cant": "The number of solutions of an equation over all real Fermi levels, for every list of bands.", "anchors": ["src/teflow/bandlib.py:BaseBand.C", "src/teflow/bandlib.py:BaseBand.solve_EF", "src/teflow/bandlib.py:MultiBands._K_n", "src/teflow/bandlib.py:APSSPB._K_n", "src/teflow/bandlib.py:APSSKB", "src/teflow/bandlib.py:LinearBand"]}
{"id": "C147", "title": "n-type legs, and pairs of a leg and its mirror", "statement": "Negating every Seebeck coefficient of a table changes nothing in what ztdev.valuate returns, provided the one-dimensional search is mirrored with it (and for any two searches that find minima, the efficiency and the device ZT agree anyway); the textbook value C135 proves for constant p-type properties holds for n-type ones. GenLeg.valuate returns the same table for a leg and for its mirror. A GenPair of a leg and its mirror with equal lengths and areas is that leg cut in two: on the same total area half the current, twice the voltage, the same power, heat and efficiency at every current; GenPair.valuate returns the table GenLeg.valuate returns for the leg alone.", "quantifier": "all tables (for the pair: rising temperatures and positive conductivities), all lengths, areas, currents and search outcomes", "why_tests_cant": "An equality between the outputs for every table and its mirror image, including the failures.", "anchors": ["src/teflow/ztdev.py:valuate", "src/teflow/ztdev.py:optim_u", "src/teflow/ztdev.py:cal_Yita", "src/teflow/engout.py:GenLeg.valuate", "src/teflow/engout.py:GenPair.valuate", "src/teflow/engout.py:BaseDevice"]}
{"id": "C148", "title": "The Debye thermal conductivity as a function of the temperature", "statement": "For KappaDebye with positive continuous rates and the integral computed exactly: with rates that do not depend on the temperature the lattice conductivity rises strictly with the temperature, from 0 in the cold to the value with classical heat capacities, which it never exceeds; if no rate grows faster than in proportion to T, T*kappa rises strictly; with ThreePhonon scattering among otherwise temperature-independent rates T*kappa tends to kB*(wD-eps)/(2*pi^2*vs*A'), whatever the other mechanisms, and (Theta=0) stays below it. GrainBoundary, PointDefect, Nanoparticles, Dislocations, StackingFaults and Cahill rates do not depend on the temperature.", "quantifier": "all Debye models with positive continuous rates, all temperatures, all lists of mechanisms, all parameters of ThreePhonon with positive coefficient and Theta >= 0", "why_tests_cant": "Monotonicity between every two temperatures and limits at 0 and infinity.", "anchors": ["src/teflow/kappa.py:KappaDebye.__call__", "src/teflow/kappa.py:KappaDebye._spectral_factor", "src/teflow/kappa.py:ThreePhonon", "src/teflow/kappa.py:GrainBoundary", "src/teflow/kappa.py:PointDefect", "src/teflow/kappa.py:Nanoparticles", "src/teflow/kappa.py:Dislocations", "src/teflow/kappa.py:StackingFaults", "src/teflow/kappa.py:CahillScattering"]}
{"id": "C149", "title": "Known results recovered by the Debye model", "statement": "KappaDebye(vs, vs_to_td(vs, Va), [CahillScattering(alpha)]) with the integral computed exactly is the minimum thermal conductivity of Cahill, Watson and Pohl divided by alpha, (pi/6)^(1/3) kB n^(2/3) 3 v (T/Theta)^2 int x^3 e^x/(e^x-1)^2 dx in SI units, up to kB eps^2/(4 pi vs alpha), less than 1e-15 W/(m.K), at every temperature; it rises strictly with T to the equipartition value kB (wD^2 - eps^2)/(4 pi vs alpha). With ThreePhonon given by its parameters (and any mechanisms with constant rates) T*kappa tends to M v^3 (6 pi^2)^(1/3)/(2 pi^2 A gamma^2 V^(2/3)), M being Ma times the mass constant of the code, up to the share eps/wD.", "quantifier": "all positive sound velocities, volumes, masses, alpha, A, Gruneisen parameters, Theta >= 0, temperatures and lists of further constant rates", "why_tests_cant": "Equality of an integral with a formula of the literature for all parameters, and limits.", "anchors": ["src/teflow/kappa.py:KappaDebye.__call__", "src/teflow/kappa.py:KappaDebye.vs_to_td", "src/teflow/kappa.py:CahillScattering", "src/teflow/kappa.py:ThreePhonon"]}
{"id": "C150", "title": "Klemens' formula is the classical form of the Debye model", "statement": "For every KappaDebye model with positive continuous rates and exact integral, at every temperature, the lattice conductivity lies between its classical form (every mode with the heat capacity kB) and that form times exp(-(Theta/2T)^2). With ThreePhonon (Theta=0, coefficient A') and PointDefect (disorder G0*x*(1-x)) the classical form is what KappaKlemens returns for Kpure = kB*wD/(2*pi^2*vs*A'*T) and the same vs, td, G0, Va, to eight digits (the two classes use slightly different constants) and up to the share eps/wD of Kpure; so the Debye value lies below KappaKlemens(x) and above exp(-(Theta/2T)^2) times it.", "quantifier": "all Debye models, temperatures; all positive velocities, Debye temperatures, coefficients, volumes, disorder parameters and compositions with u^2 >= 1e-12", "why_tests_cant": "Two-sided estimate between two independent classes for all parameters.", "anchors": ["src/teflow/kappa.py:KappaDebye.__call__", "src/teflow/kappa.py:KappaKlemens.__call__", "src/teflow/kappa.py:KappaKlemens.u2", "src/teflow/kappa.py:ThreePhonon", "src/teflow/kappa.py:PointDefect"]}
{"id": "C151", "title": "Carnot's limit of the simulated generator with varying properties", "statement": "Whenever the size of the Seebeck coefficient of the table has one sign and does not fall with the temperature, the efficiency which GenLeg.simulate returns at any reduced current with positive heat input, and every efficiency listed by GenLeg.valuate, is at most 100*(1-Tc/Th); the heat input is positive for every reduced current from 0 to 1. The same holds for GenPair with any positive length and area ratios when it holds for the Seebeck coefficients of both legs. For general integrals (Th <= 2*Tc) the limit holds at all currents exactly if the Seebeck-weighted mean temperature is at least (Tc+Th)/2 or Zeng*(Tc+Th-2*Ts)^2 <= 4*(Tc+Th-Tr); a table with a Seebeck coefficient falling from 900 to 100 uV/K between 300 K and 600 K gets 67.6 % where Carnot allows 50 %.", "quantifier": "all rising tables with positive conductivities and a Seebeck coefficient of one sign and non-falling size, all pairs of their temperatures, leg sizes and currents; all integrals for the exact condition", "why_tests_cant": "Inequality over all tables and currents; the exact boundary is a statement about all of them at once.", "anchors": ["src/teflow/engout.py:GenCore._simulate", "src/teflow/engout.py:GenCore._get_prfs", "src/teflow/engout.py:GenCore._get_mdfs", "src/teflow/engout.py:GenLeg.simulate", "src/teflow/engout.py:GenLeg.valuate"]}
{"id": "C152", "title": "Which rows of the table matter, and what a better material changes", "statement": "The integrals, profiles and simulated results of a leg between two temperatures of its table depend only on the rows from Tc to Th: rows below and above may be present or absent. If the electrical conductivity is raised by a common factor c >= 1, the Seebeck coefficient multiplied by a common factor s with s^2 >= 1, and the thermal conductivity lowered at any temperatures, then the power at every reduced current is c*s^2 times as large, the efficiency at every reduced current from 0 to 1 does not fall and rises inside for c*s^2 > 1, and likewise the best efficiency ('YitaMax').", "quantifier": "all rising tables with positive columns, all pairs of their temperatures (Th <= 2*Tc for the comparison), factors, lowered thermal conductivities, leg sizes and currents", "why_tests_cant": "Comparison of two arbitrary materials at all currents.", "anchors": ["src/teflow/engout.py:GenCore._get_itgs", "src/teflow/engout.py:GenCore._simulate", "src/teflow/engout.py:GenCore._get_prfs", "src/teflow/engout.py:GenLeg.build", "src/teflow/engout.py:GenLeg.simulate"]}
{"id": "C153", "title": "Engineering figures of merit never exceed those of the material", "statement": "For every table with positive conductivities, whatever the temperature dependence (the Seebeck coefficient may change sign), the engineering figure of merit ZTeng of a leg between two temperatures of the table is at most the largest z = S^2/(rho*kappa) of the rows between them times Th-Tc, and PFeng is at most the integral of the power factor, hence the largest power factor times Th-Tc; so are the columns of GenLeg.valuate. Constant properties attain the bounds. The ZTeng of a GenPair is at most the largest z of both materials times Th-Tc, for all positive length and area ratios.", "quantifier": "all rising tables with positive electrical and thermal conductivities, all pairs of their temperatures, all positive ratios", "why_tests_cant": "Cauchy-Schwarz-type inequality over tables of any length.", "anchors": ["src/teflow/engout.py:GenCore._get_itgs", "src/teflow/engout.py:GenCore._get_prfs", "src/teflow/engout.py:GenLeg.build", "src/teflow/engout.py:GenLeg.valuate", "src/teflow/engout.py:GenPair.build"]}
{"id": "C154", "title": "A varying material does not beat the textbook efficiency of its best figure of merit", "statement": "If, with rising temperature, neither the size of the Seebeck coefficient (one sign) nor the electrical conductivity falls, then the efficiency that GenLeg.simulate returns at every reduced current from 0 to 1, and every efficiency listed by GenLeg.valuate, is at most the textbook efficiency of a constant-property leg with ZT = z*(Tc+Th)/2, z being any bound of S^2/(rho*kappa) over the rows between the temperatures; the thermal conductivity may vary in any way.", "quantifier": "all such rising tables, pairs of their temperatures, bounds z, leg sizes and reduced currents in [0,1]", "why_tests_cant": "Inequality between two formulas over all tables and currents.", "anchors": ["src/teflow/engout.py:GenCore._simulate", "src/teflow/engout.py:GenCore._get_prfs", "src/teflow/engout.py:GenLeg.simulate", "src/teflow/engout.py:GenLeg.valuate"]}

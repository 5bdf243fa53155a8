#!/usr/bin/env python3
"""Writes /verif/properties.jsonl. (id, title, statement, quantifier, why_tests_cant, anchors)"""
import json, os
U='src/teflow/utils.py'; L='src/teflow/loader.py'; M='src/teflow/mathext.py'; A='src/teflow/anisotro.py'
Z='src/teflow/ztdev.py'; E='src/teflow/engout.py'; I='src/teflow/interface.py'; B='src/teflow/bandlib.py'; K='src/teflow/kappa.py'
P=[
("C01","retain keeps exactly the named entries","After popped = d.retain(keys), d holds exactly the entries of the old d whose key occurs in keys, with their old values and in their old relative order, and popped holds exactly the removed entries; together they are the old dictionary.","every dictionary, every collection of keys (repeats and unknown keys included), every iteration order of the intermediate set","removal is driven by an arbitrary set iteration order; tests see one order and a few dictionaries",[f"{U}:AttrDict.retain"]),
("C02","retain(match_order=True) orders the result by keys","After d.retain(keys, match_order=True) the surviving keys appear in the order of their (last) position in keys, values unchanged, and the survivors are the same as without match_order.","every dictionary and every key sequence, with repeats","the reordering uses a prefix scan plus moves; correctness is an induction over all orders",[f"{U}:AttrDict.retain"]),
("C03","retain's error behaviour","retain raises TypeError on a non-iterable and leaves d alone; with match_order=True and an iterable that is not a sequence it raises TypeError, but only after the unlisted entries have already been removed (so the error is not side-effect free).","every dictionary and key collection","a crash point inside an operation: needs the state after every failing call",[f"{U}:AttrDict.retain"]),
("C04","ListDict merge/append/extend laws","ListDict.merge(objs+[o]) equals merge(objs) followed by append(o); merge(a+b) equals merge(a) followed by extend(merge(b)); a missing key raises KeyError, and append then leaves exactly the columns before the missing key one longer.","every non-empty list of dictionaries and every key list","algebraic law over unbounded lists and failing positions",[f"{U}:ListDict.merge",f"{U}:ListDict.append",f"{U}:ListDict.extend"]),
("C05","ListDict.sum laws","ListDict.sum gives, for each requested key, start plus the sum of that key over all dictionaries; the result does not depend on the order of the dictionaries, and summing a concatenation is summing in two steps.","every list of dictionaries, every start, every key list","order independence quantifies over all permutations",[f"{U}:ListDict.sum"]),
("C06","parse_list tokenises exactly","parse_list returns the non-empty maximal runs of characters that are neither whitespace nor commas, in order; joining any tokens with any non-empty mixture of blanks and commas and parsing gives the tokens back.","every string, every token list, every separator mixture","unbounded strings; round trip",[f"{U}:CfgParser.parse_list",f"{U}:CfgParser.parse_list_float",f"{U}:CfgParser.parse_list_int"]),
("C07","parse_seq range expansion","In parse_seq, 'a:b' yields a, a+1, ... up to and including the last value below b+1E-4, and 'a:s:b' yields a, a+s, ... with int((b-a)/s+1E-4)+1 values staying between a and b (up to 1E-4 steps), nothing when the step points away from b, and ZeroDivisionError for a zero step.","all start, step and end values (exact arithmetic)","unbounded lengths; inclusive-end tolerance at every boundary",[f"{U}:CfgParser.parse_seq"]),
("C08","parse_seq text splitting","parse_seq splits its text at runs of blanks/commas that are not adjacent to a colon: any list of items joined by separators is expanded item by item, at most one blank is tolerated on each side of a colon, and an item with more than three fields raises ValueError.","every string","regular expression with look-around over all strings",[f"{U}:CfgParser.parse_seq"]),
("C09","pmatch finds the first section with the given prefix","pmatch(name) returns the first section, in file order, that is named 'name' or starts with 'name.', with its type (the text after the first dot, or the whole name), and raises NoSectionError exactly when there is none.","every list of sections and every name","all section orders and names",[f"{U}:CfgParser.pmatch"]),
("C10","ExecWrapper passes the latest values","After any history of update calls, execute(**kw) calls the wrapped object with, for each declared argument, the value from kw if given, else the last updated value; undeclared names are ignored and unset optional names are omitted.","every history of update/execute calls","quantifies over histories",[f"{U}:ExecWrapper.update",f"{U}:ExecWrapper.execute"]),
("C11","ExecWrapper failure and isolation","execute raises ValueError exactly when some required argument has no value (naming exactly those), wraps any exception of the object in RuntimeError, and never changes the stored values.","every history and every keyword set","histories and error branches",[f"{U}:ExecWrapper.execute"]),
("C12","get_root_logger never duplicates handlers","After any sequence of get_root_logger calls each logger has at most one handler per target (console, or a given file name), and the handler is the one from the latest call for that target.","every call history","quantifies over histories",[f"{U}:get_root_logger"]),
("C13","Compound text round trip","Compound.from_string(c.to_string()) gives back c (same elements, same order, same amounts) for every style, for valid element symbols with printable plain-decimal amounts.","every compound","round trip over unbounded structures",[f"{L}:Compound.from_string",f"{L}:Compound.to_string"]),
("C14","Compound.from_string on arbitrary text","from_string returns one entry per distinct recognised symbol, in order of first occurrence, with the amount of the last occurrence (repeated symbols are overwritten, not summed); unknown symbols are kept, skipped or rejected according to the flags.","every formula string","all strings",[f"{L}:Compound.from_string"]),
("C15","Compound.replace","replace(old,new) renames one element keeping its amount: with match_order=True every entry keeps its position, otherwise the new element goes last; KeyError exactly when old is absent or new is present, leaving the compound unchanged; replacing back restores the compound.","every compound, every pair of names","loop over popped items, all positions",[f"{L}:Compound.replace"]),
("C16","natom rounding","natom is within 1E-8 of the sum of the amounts, is that sum unless an integer lies within 1E-8 of it, and is an integer in that case.","every compound","all real sums around the tolerance",[f"{L}:Compound.natom"]),
("C17","weight_ave is an average","weight_ave of a compound with positive amounts lies between the smallest and largest atomic weight of its elements (when natom is exact), equals the weight for a single element, ignores element order, and is unchanged when all amounts are multiplied by a constant; unknown elements raise KeyError.","every compound","all amounts and permutations",[f"{L}:Compound.weight_ave",f"{L}:Compound.weights"]),
("C18","Alloy stoichiometry","Alloy.from_compounds rescales each site so its amounts total the requested number of atoms without changing their ratios; all_sites(regular=True) yields for each site fractions that total 1 together with that total; more than 26 unnamed sites is rejected.","every list of compounds, names and totals","unbounded site lists",[f"{L}:Alloy.from_compounds",f"{L}:Alloy.all_sites"]),
("C19","C, R, N and U stay mutually consistent","Whenever TEdataset(2).get can deliver them from the same data, C*R = 1E4 and C = 1.602176634*N*U hold point by point.","every set of available columns and all non-zero values","every combination of available columns and values",[f"{L}:TEdatasetBase._getC",f"{L}:TEdatasetBase._getR",f"{L}:TEdatasetBase._getN",f"{L}:TEdatasetBase._getU"]),
("C20","get/[]/gget precedence and errors","get returns stored data verbatim when present, a derived value when derivable, else the default, and raises ValueError exactly when nothing is available and no default is given; [] only ever returns stored data; gget is get item by item.","every dataset, key and default","full decision table over all datasets",[f"{L}:TEdataset.get",f"{L}:TEdataset2.get",f"{L}:TEdatasetBase.gget"]),
("C21","TEdataset2 links each property to its temperature","Each stored property is paired with the temperature column nearest before it; building fails exactly when the first identifier is not the temperature; derived N and U never mix columns from different temperature blocks.","every group and data list","unbounded column layouts",[f"{L}:TEdataset2._initialize_data"]),
("C22","parse_group","parse_group splits a string into identifiers of an upper-case letter plus at most one lower-case letter, digit or underscore, in order, skipping other characters; concatenated identifiers parse back unchanged; a list is returned as is.","every string","all strings; round trip",[f"{L}:TEdatasetBase.parse_group"]),
("C23","parse_datafile gives a rectangular table","parse_datafile returns columns of equal length (the number of data rows), entry (i,j) being the j-th number of the i-th data row or NaN if that row is shorter or the item is not a number; text from '#' on never contributes a number.","every file content","all ragged files",[f"{L}:TEdatasetBase.parse_datafile"]),
("C24","from_file delivers finite, row-aligned data","TEdataset.from_file columns contain only finite values in file order; in TEdataset2.from_file every block of a temperature and its properties consists of exactly the rows in which all of the block is finite, so T and property arrays stay aligned.","every table with missing values","all patterns of missing values",[f"{L}:TEdataset.from_file",f"{L}:TEdataset2.from_file"]),
("C25","CTA/ZEM parsing","The parsed T, R, S come, in order, from fields 0, 1 and 4 of exactly the tab-separated lines after the first header line that have at least 5 fields, with T shifted by 273 and (ZEM) R, S scaled by 1E6; no header line gives IOError.","every file content","all files",[f"{L}:_parse_CTA_ZEM",f"{L}:parseCTA",f"{L}:parseZEM"]),
("C26","LFA parsing","parseLFA uses exactly the '#Mean' lines with at least three non-empty fields if there are any, otherwise every line with at least three fields; T is shifted by 273; T and diffusivity have equal length; a missing '##Results' header gives IOError.","every file content","all files",[f"{L}:parseLFA"]),
("C27","parse_TEfile decisions","parse_TEfile demands sample, exactly one of ZEM/CTA, LFA and density (in this order of checks) and otherwise fails; on success kappa = diffusivity*density*Cp point by point.","every combination of present parameters","decision table over all combinations",[f"{L}:parse_TEfile",f"{L}:parse_CpT"]),
("C28","Metric laws","MSE, RMSE, MAE, SMAPE are non-negative and zero only for equal data; MSE, RMSE, MAE, SMAPE are symmetric; RMSE^2 = MSE; MAE <= RMSE; SMAPE <= 2; MAPE is unchanged by rescaling both data sets.","all data of any length","inequalities over all vectors",[f"{M}:Metric"]),
("C29","split_monotonic yields disjoint monotonic pieces","With default options the returned index ranges are in order and share no step, each piece is monotonic up to eps with the reported sign, starts and ends with a real (> eps) step in its direction, and every real step of the data lies in exactly one piece.","every array and eps","regular-expression scan over all arrays",[f"{M}:split_monotonic"]),
("C30","split_monotonic options","trend='ascending'/'descending' returns exactly the pieces of trend='both' with that sign; the ends option only adds or drops the end points; invalid options raise ValueError.","every array and option string","all arrays and options",[f"{M}:split_monotonic"]),
("C31","mixing is a weighted mean","With default scale mixing returns sum(w*d)/sum(w): between the smallest and largest input for non-negative weights, unchanged by a common factor on the weights, independent of the order of (data, weight) pairs; wrong weight count or shapes raise ValueError.","any number of data sets, all weights","all lists and permutations",[f"{M}:mixing"]),
("C32","fermidirac and its inverse","fermidirac is strictly decreasing with values in (0,1), satisfies f(-x)=1-f(x), and fermidirac(.,inverse=True) is its two-sided inverse.","all reals","continuum of inputs",[f"{M}:fermidirac"]),
("C33","smoothstep and its inverse","smoothstep takes values in [0,1], is monotone, saturates outside the transition, obeys shifted(x)=plain((1-x)/2), and inverse=True is its two-sided inverse on the transition range.","all reals, both shift settings","continuum; trigonometric identity",[f"{M}:smoothstep"]),
("C34","Gaussian-process interpolation is exact at the data","With no regularisation interp_gpr returns y at the data points for both kernels; kernels are symmetric with values in (0,1], equal 1 on the diagonal, and the gradient option is the derivative in the query point.","all data with a solvable kernel matrix","continuum of inputs",[f"{M}:_interp_gpr",f"{M}:_kernel_rbf",f"{M}:_kernel_dfx"]),
("C35","interpx is piecewise-linear inter/extrapolation","interpx returns y at every data x, reproduces every straight line at every query point (also outside the range), stays between neighbouring data inside the range, and returns the left/right value outside when given.","all strictly increasing x, all y, all queries","continuum of inputs and lengths",[f"{M}:interpx",f"{M}:_interpx"]),
("C36","vinterp does not depend on data order","With reorder=True vinterp gives the same result for every ordering of the (x,y) pairs with distinct x; with reorder=False it raises ValueError exactly when x decreases somewhere; wrong length or non-finite input raises ValueError.","all data and permutations","quantifies over permutations",[f"{M}:vinterp"]),
("C37","vquad masking","vquad integrates exactly where the mask is true and returns (fill_value, 0) elsewhere; every output element depends only on the broadcast inputs at its own position.","all shapes and masks","all broadcast shapes",[f"{M}:vquad"]),
("C38","Voigt round trip","tens2seq(seq2tens(s)) = s for every use_upper option; seq2tens(tens2seq(m)) = m exactly for symmetric m, and the default option returns the symmetric part.","all tensors","continuum",[f"{A}:tens2seq",f"{A}:seq2tens"]),
("C39","rotate3d is R C R^T","rotate3d returns the Voigt form of R*C*R^T; successive rotations compose; for orthogonal R the trace, determinant and second invariant are preserved and the transposed rotation undoes it.","all matrices and tensors","continuum; polynomial identities",[f"{A}:rotate3d"]),
("C40","All ways to give an axis agree","orient='x','y','z' equals the vector forms (1,0,0),(0,1,0),(0,0,1) of any length; rotating by y then z equals comb_rotations; angle addition holds on a fixed axis; every rotation so generated is orthogonal with determinant 1.","all angles and axes","continuum; trigonometric identities",[f"{A}:rotate3d",f"{A}:comb_rotations"]),
("C41","project3d","project3d is n.C.n for the unit vector of the given angles, lies between the extreme values of the quadratic form, is additive in the tensor, and equals the zz component after rotating that direction onto z.","all angles and tensors","continuum",[f"{A}:project3d"]),
("C42","anilay bounds","For positive layers vertical conductivities are at most the parallel ones and both lie between the extreme layer values; Seebeck values lie between layer extremes; identical layers give the layer values; layer order is irrelevant; across and along the layers the stack carries heat, current and thermovoltage as one layer of the total width with the six values.","any number of layers, all widths","unbounded lists; mean inequality",[f"{A}:anilay"]),
("C43","cal_ZTdev inverts the device efficiency","cal_ZTdev applied to the efficiency of a constant-property generator with figure of merit z and temperatures Tc<Th returns z (outside its 1E-3 guard).","all z>=0, Tc, Th","continuum",[f"{Z}:cal_ZTdev"]),
("C44","cal_ZTdev range","cal_ZTdev is 0 at zero efficiency and on the guarded set |Th(1-y/100)-Tc|<=1E-3, non-negative and strictly increasing for efficiencies from 0 up to the Carnot guard.","all inputs","continuum and guard boundary",[f"{Z}:cal_ZTdev"]),
("C45","cal_Yita structure and n/p symmetry","cal_Yita returns one value per temperature starting with 0, the last equals the scalar result, each value depends only on data up to that temperature, and negating S and u together changes nothing.","all data lengths and values","induction over unbounded data",[f"{Z}:cal_Yita",f"{Z}:cal_Phi"]),
("C46","optim_u search interval","The interval searched by optim_u has the sign of S[0], mirrors exactly for negated S, and is ordered exactly when |S0|*C0/K0 >= 100; when |S0|*C0/K0 < 100 (in particular S0 = 0) optim_u always ends in an error.","all data","boundary analysis over all reals",[f"{Z}:optim_u"]),
("C47","ztdev.valuate output","valuate returns Th = T, Tc = T[0] repeated, and pairs efficiencies with temperatures; with allTemp=False the single efficiency is combined with every temperature, so only the last ZTdev is meaningful.","all data","all lengths",[f"{Z}:valuate"]),
("C48","engout integrals: exactness, bounds, additivity","For tabulated data the plain integrals <Rho>, <S>, <K> are additive over intermediate temperatures, bounded by the extreme values and exact for constant properties at any Tc, Th inside the table; the temperature-weighted integrals <T*Rho>, <T*S> are exact for constants when Tc and Th are table temperatures, and provably inexact in between; outside the table nothing is added.","all tables, Tc, Th","induction over unbounded tables",[f"{E}:GenCore._get_itgs"]),
("C49","Generator identities and geometry scaling","Pout = 1E-3*I*Vout, Yita = 100*Pout/Qhot, Yita does not depend on leg length or area, currents and powers scale with A/L, and reversing the sign of S flips I and Vout only.","all profiles and currents","continuum",[f"{E}:GenCore._simulate",f"{E}:GenCore._get_prfs"]),
("C50","PowerMax maximises the output power","The output power at I_r='PowerMax' is at least the output power at any reduced current.","all currents and profiles","optimality over the continuum",[f"{E}:GenCore._simulate"]),
("C51","YitaMax maximises the efficiency","The efficiency at I_r='YitaMax' is at least that at any reduced current in [0,1] with positive heat input.","all currents and profiles","optimality over the continuum",[f"{E}:GenCore._simulate",f"{E}:GenCore._get_prfs"]),
("C52","Carnot bound for constant properties","For constant properties the efficiency at every reduced current in [0,1] is at most the Carnot efficiency, and the optimal one is the textbook expression in ZT.","all constant materials and temperatures","continuum",[f"{E}:GenLeg.simulate"]),
("C53","build/simulate protocol","simulate before build raises RuntimeError; after any history simulate uses the profiles of the latest build; unknown mode strings raise ValueError; one value of a temperature or a current is repeated for all cases, other numbers of values have to agree or a ValueError leaves the leg as it was; the 'scan' mode ends in TypeError for floating-point temperatures.","all call histories and mode strings","histories",[f"{E}:GenCore._simulate",f"{E}:GenCore._build"]),
("C54","Polynomial mode agrees with tabulated mode","Polynomial input gives the exact integrals of the polynomials for <Rho>, <S>, <K> and <T*Rho>; the Seebeck-temperature integral <T*S> is computed from the resistivity polynomial, so it is wrong unless the two happen to agree.","all polynomials, Tc, Th","continuum",[f"{E}:GenCore._get_itgs"]),
("C55","GenPair area ratio: what it is and when it is optimal","ratioArea='ZTengMax' ('PFengMax') uses a ratio that is the largest ZTeng (PFeng) over all positive area ratios exactly when Rho_p*K_n = Rho_n*K_p (Rho_p = Rho_n); otherwise the inverse ratio is strictly better, and the true optimum is known in closed form.","all materials and ratios","optimality over the continuum",[f"{E}:GenPair._get_itgs"]),
("C56","GenPair combines its legs","The pair's resistance and conductance are those of two legs in series/parallel for the given ratios, swapping the legs (and inverting the ratios) only reverses the voltage sign, and pair builds always compute weight factors.","all materials and ratios","continuum",[f"{E}:GenPair._get_itgs",f"{E}:GenPair.build"]),
("C57","Auto-generated output names","When no output name is given the generated name differs from the input file's own name (and loses its directory); a given output name is used as is; the derived outputs of tef-kappa have pairwise different names, but with a given output name a derived name can coincide with the input file, which is then overwritten.","all file names","all strings",[f"{I}:_suffixed",f"{I}:do_kappa"]),
("C58","Sub-command dispatch","The first argument selects the sub-command by case-insensitive prefix, remaining arguments are passed on unchanged, anything else prints help, nothing prints the version line.","all argument lists","all strings",[f"{I}:_do_main"]),
("C59","tef-refine","Every output row of refine is a non-empty uncommented input row with blanks normalised and the picked columns in order; refining a bare result again changes nothing; a column out of range leaves a truncated output file holding exactly the rows before the failure.","all files and column lists","all files; crash point",[f"{I}:do_refine"]),
("C60","tef-mixing --extend","Without padding the number of output rows is the smallest number of (filtered) rows, with padding the largest, every output row joins row i of each file, and padding fills missing rows with ncol copies.","any number of files","unbounded ragged inputs",[f"{I}:do_mixing"]),
("C61","tef-mixing weights","A weight string of digits is read digit by digit, otherwise as blank-separated numbers; a scale below 1E-4 in size means normalised mixing.","all strings","all strings",[f"{I}:do_mixing"]),
("C62","tef-cutoff","cutoff multiplies exactly the selected columns by a factor in [0,1] that decreases with temperature, is 1/2 at the threshold; other columns are unchanged; without -m the command always fails.","all tables and options","continuum and default option",[f"{I}:do_cutoff"]),
("C63","tef-format temperature series","The automatic temperature series is strictly increasing with constant step after the first points and ends within half a step of the maximum temperature (when that is large enough).","all steps and maxima","continuum",[f"{I}:do_format"]),
("C64","tef-format method selection","The method option accepts one or at least three words, maps each to a supported interpolation by its initial (or polynomial digit), in the order C, S, K, and rejects everything else.","all option strings","all strings",[f"{I}:do_format"]),
("C65","tef-format derived columns","PF, ZT and CF obey their definitions; CF maximises the reduced efficiency; ZTave is the trapezoid device figure of merit, equal to ZT where the thermal integral is negligible and, for constant properties, to ZT at the mean temperature; with an input L column the Lorenz number written is the interpolated K data (not L).","all tables","continuum",[f"{I}:do_format"]),
("C66","tef-interp","The sampling points come from the output file if it exists, else from start:step:stop (all points below stop + step/1000), else equally spaced between the ends of the data; the linear methods always need --extrapolate to finish; the table written has the points in front unless --bare.","all inputs and options","all files and options",[f"{I}:do_interp"]),
("C67","Band caching is transparent","After compile(EF,T) every property of a single band up to the compiled level equals the direct evaluation at (EF,T), whatever arguments are passed; after clear the direct evaluation is back, for any history of compile/clear calls. The same holds for MultiBands whose band objects are pairwise different, uncompiled before and have a Hall integral; with a shared or precompiled band, a band appended later or a LinearBand it does not (compile fails or values are stale).","all histories, EF, T","histories",[f"{B}:BaseBand.compile",f"{B}:BaseBand.fetch",f"{B}:BaseBand.clear",f"{B}:MultiBands.compile"]),
("C68","Multi-band totals","For a MultiBands model N, C and the Hall term are sums over bands, the Seebeck coefficient is the conductivity-weighted mean of the band values, independent of band order.","any number of bands","unbounded band lists",[f"{B}:MultiBands._K_n",f"{B}:MultiBands._N",f"{B}:MultiBands._CCRH"]),
("C69","Bipolar thermal conductivity","Kbip is non-negative, zero with only one carrier type, and equals Ke of the whole minus Ke of the conduction and valence parts.","all band sets","continuum; convexity inequality",[f"{B}:MultiBands.Kbip"]),
("C70","L and Ke are non-negative","For any non-negative transport function the Romberg quadrature used gives K0*K2 >= K1^2, so the Lorenz number and the electronic thermal conductivity are non-negative.","all transport functions, EF, T","inequality over all functions",[f"{B}:romb_dfx",f"{B}:BaseBand.L",f"{B}:BaseBand.Ke"]),
("C71","guess_btypes","guess_btypes returns one type per offset following the sign rule, resolves near-zero offsets only when all others agree, and fails exactly when that is ambiguous.","all offset lists","all lists and tolerance boundary",[f"{B}:MultiBands.guess_btypes"]),
("C72","MultiBands construction","MultiBands keeps every band in order with its offset when the type list has length one or the number of bands; a shorter type list silently drops bands; mismatched offsets or unknown types raise ValueError.","all lists","unbounded lists",[f"{B}:MultiBands.__init__",f"{B}:MultiBands.append"]),
("C73","Band sharing and extend","The carrier sign is stored in the band object: appending one object twice with different types changes both occurrences; extend appends the other's bands with their types; a.extend(a) on a non-empty model never finishes.","all append histories","aliasing and non-termination",[f"{B}:MultiBands.append",f"{B}:MultiBands.extend"]),
("C74","idos integrates dos","For the parabolic, Kane and linear bands idos vanishes at 0 and its derivative is dos at every positive energy.","all energies and parameters","continuum",[f"{B}:APSSPB.idos",f"{B}:APSSKB.idos",f"{B}:LinearBand.idos"]),
("C75","Anisotropy factor and constructors","Kstar is at most 1 with equality only for Kmass=1; from_UWT and UWT are inverse; from_DP with m2 omitted is isotropic.","all parameters","continuum",[f"{B}:APSSPB.Kstar",f"{B}:APSSPB.from_UWT",f"{B}:APSSPB.from_DP"]),
("C76","RSPB inverse functions","iSr, iUr and iLr invert Sr, Ur and Lr for every positive reduced concentration and every non-zero factor, and Sr, Ur are strictly decreasing.","all arguments","continuum",[f"{B}:RSPB"]),
("C77","RSPB.valuate recovers model inputs","Feeding data generated from the RSPB model at known (Nr, UWT, m_d, T) to RSPB.valuate returns UWT and the Lorenz number; the reported m_eff and Nopt are off by fixed powers of N0.","all model inputs","continuum",[f"{B}:RSPB.valuate"]),
("C78","bandline","bandline is even about k0 with minimum (or maximum) E0, and the Kane form solves e(1+|e|/Eg) = parabola; it tends below the parabola in size.","all arguments","continuum",[f"{B}:bandline"]),
("C79","dosline","dosline without gap vanishes outside the band, is non-negative and translation covariant; with a gap the energy offset and the sign of the mass are ignored.","all arguments","continuum",[f"{B}:dosline"]),
("C80","The Fermi-integral substitution is exact","The sampling points and weights of romb_dfx are the exact change of variables for the derivative of the Fermi function.","all t in (0,1)","continuum",[f"{B}:romb_dfx"]),
("C81","valuate output keys","The set of properties returned by APSSPB/APSSKB/RSPB.valuate is exactly determined by which inputs are given, and Kp + Ke = K.","all input combinations","decision table with all values",[f"{B}:APSSPB.valuate",f"{B}:APSSKB.valuate",f"{B}:RSPB.valuate"]),
("C82","Variable values stay in bounds and in sync","After any history of assignments an unconstrained Variable's value lies in its bounds, a rejected assignment changes nothing, and every registered parameter set holds value*scale under its key (unless overwritten directly).","all histories","histories with shared state",[f"{K}:Variable",f"{K}:Parameters"]),
("C83","Variable is one object per tag","Constructing a Variable again with a known tag returns the existing object with its settings unchanged; a construction that fails its bound check can be retried, one that fails its constraint check leaves an unusable object behind.","all construction histories","histories and crash points",[f"{K}:Variable.__new__",f"{K}:Variable.__init__"]),
("C84","Fit evaluation synchronises everything","_cal sets every free variable and then refreshes constrained ones; if the constrained variables are listed after those they depend on, every parameter set is consistent with the constraints afterwards.","all dependency lists in order","induction over dependency chains",[f"{K}:BaseKappaModel._cal",f"{K}:BaseKappaModel.fit"]),
("C85","Debye model: Matthiessen's rule","The reported total rate is the sum of the mechanisms, accumulated spectral curves decrease as mechanisms are added and the last one belongs to the total rate, labels list the mechanisms included; duplicate mechanisms and an empty list are rejected.","any number of mechanisms","unbounded lists",[f"{K}:KappaDebye"]),
("C86","Cumulative thermal conductivity over mean free path","The cumulative curve is non-negative, non-decreasing in the mean free path, at most the total and equal to it for large mean free paths; it counts a bin only above the bin's upper edge.","all bins and mean free paths","unbounded sums",[f"{K}:KappaDebye.cumulative_mfp_t"]),
("C87","Scattering rates","All scattering rates are non-negative for physical parameters, non-decreasing in frequency, and the direct-coefficient form with the documented coefficient gives the same rate; the nanoparticle rate never exceeds its geometric limit.","all frequencies, temperatures, parameters","continuum",[f"{K}:ThreePhonon",f"{K}:PointDefect",f"{K}:GrainBoundary",f"{K}:Nanoparticles",f"{K}:StackingFaults",f"{K}:Dislocations",f"{K}:CahillScattering"]),
("C88","Electron-phonon factor","The computed R_ep equals the documented Ziman expression and lies strictly between 0 and 1.","all frequencies, temperatures, parameters","continuum",[f"{K}:FreeElectrons._cal_Rep"]),
("C89","FreeElectrons parameter selection","Non-zero coef and Rep are used as given; a zero coef or Rep is treated as missing and falls back to the formula (KeyError if its inputs were not given).","all parameter sets","decision table",[f"{K}:FreeElectrons.coef",f"{K}:FreeElectrons.Rep"]),
("C90","Klemens model","The alloy conductivity never exceeds Kpure, is positive, is symmetric under x -> 1-x and falls as disorder increases.","all parameters and compositions","continuum",[f"{K}:KappaKlemens.__call__",f"{K}:KappaKlemens.u2"]),
("C91","Disorder parameter","fluctuation returns the documented Gamma, Gamma_M, Gamma_S and configuration entropy for any numbers of species; Gamma is non-negative, vanishes when every sublattice has a single species (or equal masses), is unchanged by rescaling all masses and by un-normalised occupations when renorm is on, and rejects them when off.","any number of sublattices and species","unbounded nested lists",[f"{K}:KappaKlemens.fluctuation"]),
("C92","Sound-velocity relations","vs_to_gm equals the documented expression through Poisson's ratio; vs_mean lies between the two velocities and returns the common velocity when they agree.","all velocities","continuum",[f"{K}:KappaDebye.vs_to_gm",f"{K}:KappaDebye.vs_mean"]),
("C93","Substituted configuration","In the substituted configuration every fitted variable's line becomes a constant with the fitted value (value*scale), other lines are unchanged, and a variable whose line cannot be found is an error.","all files and variables","all texts",[f"{K}:parse_KappaFit"]),
("C94","Frequency unit","The frequency unit option selects the factor by prefix (THz, normalised, reduced, meV), a number is used as is, anything else means rad/ps.","all option strings","all strings",[f"{K}:parse_KappaFit"]),
("C95","Prediction range","The automatic prediction range contains the data range, extends it by margin on both sides, and has the requested number of points.","all data and margins","continuum",[f"{K}:parse_KappaFit"]),
("C96","Sub-model assembly","Building a model from sections evaluates components recursively in order, resolves @references to variables, and fails on unknown types, empty values or unknown references; cyclic components never finish.","all configurations","recursion over all configurations",[f"{K}:parse_KappaFit"]),
]
EXTRA=[
("C97","Reverse current-density scan obeys the Carnot limit","cal_ZTdev-style efficiency never exceeds the Carnot efficiency as long as the relative current stays positive along the leg, and each segment of the leg balances heat in = heat out + electrical work.","all temperature tables, property values and starting currents","induction over unbounded tables with real arithmetic",[f"{Z}:cal_Yita"]),
("C98","Weight factors of the generator","The weight factors W_J and W_T of a build do not depend on the unit in which the Seebeck coefficient is given, while the alpha_i factors scale inversely with it (they are not dimensionless); for constant resistivity W_J is the mean temperature over the temperature difference.","all data and rescalings","symmetry over the continuum",[f"{E}:GenCore._build"]),
("C99","valuate","GenLeg.valuate reports for each temperature above the first the maximum-power and maximum-efficiency state of one leg between the first temperature and it; GenPair.valuate combines the figure of merit and efficiency of the 'ZTengMax' device with the power factor and power of the 'PFengMax' device.","all tables","unbounded tables, two-build histories",[f"{E}:GenLeg.valuate",f"{E}:GenPair.valuate"]),
("C100","Hall function of the models","For the parabolic and the Kane band the Hall integrand is Kstar times the squared transport function over charge times integrated density of states, Kstar being the anisotropy factor 3K(K+2)/(2K+1)^2.","all energies, masses, gaps, anisotropies","identity over the continuum",[f"{B}:APSSPB.hall",f"{B}:APSSKB.hall"]),
("C101","Hall concentration and mobility","With a non-negative transport function the Hall concentration of a single band is at most the carrier concentration over Kstar and the Hall mobility at least Kstar times the drift mobility.","all Fermi levels, temperatures and band parameters","continuum with an inequality between integrals",[f"{B}:BaseBand.NH",f"{B}:BaseBand.UH"]),
("C102","Inversion of measured data","If S, C, N, K were generated by a band of the model at some Fermi level and the root finder returns that Fermi level, valuate returns the generating band parameters (mass, weighted mobility, lattice conductivity).","all bands and Fermi levels","inverse problem over the continuum",[f"{B}:APSSPB.valuate",f"{B}:APSSKB.valuate"]),
("C103","Both forms of the carrier concentration agree","For the parabolic, Kane and linear band the integral of the density of states with the Fermi function equals the integral of its antiderivative with the Fermi window, which is what the quadrature approximates.","all Fermi levels, temperatures and band parameters","integral identity over the continuum",[f"{B}:APSSPB.dos",f"{B}:APSSPB.idos",f"{B}:BaseBand.N"]),
("C104","Debye integrand","The spectral conductivity of the Debye model is the documented integrand 1/3 v^2 g hbar omega df/dT times the relaxation time; the factor is positive, rises with temperature and stays below (and approaches) its classical Dulong-Petit value.","all frequencies, temperatures and model parameters","continuum",[f"{K}:KappaDebye._spectral_factor",f"{K}:KappaDebye.spectral"]),
("C105","Simple thermal conductivity models","Slack's model falls as 1/T and notices an unknown coefficient model only when evaluated; its named coefficients are positive; the bipolar term rises with temperature; the power law passes through its ambient value at 300 K and falls for a negative exponent.","all parameters and temperatures","continuum",[f"{K}:KappaSlack",f"{K}:KappaBipolar",f"{K}:KappaPowerLaw"]),
("C106","Syntax of fitted variables","In [variables] the text 'initial ? scale <lower, upper>' declares a fitted variable with this start value, scale and bounds, with the defaults 1, 1, 0 and 1000 for missing parts; a start value outside the bounds is an error; a text without a question mark is a constant; malformed bounds are ignored.","all texts and blanks","all strings",[f"{K}:parse_KappaFit"]),
("C107","Split prediction columns","With splitkappa the prediction consists of the total, one accumulated column per scattering mechanism labelled by the joined mechanism tags, and one column per additional model; the total is the sum of the last accumulated column and the additional ones.","all mechanism and model lists","list lengths",[f"{K}:parse_KappaFit",f"{I}:do_kappa"]),
("C108","Configuration sections to rates and conductivities","A section of a configuration becomes the rate or conductivity of the documented formula with every key in its place: required keys as given, optional keys with the documented default, @references as the current value of the variable times its scale; a missing required key or an unknown one is an error. A Klemens model used as a component of a Debye model is evaluated at the temperature instead of the composition.","all configurations and variable values","all texts and values; argument wiring",[f"{K}:parse_KappaFit",f"{K}:EXECMETA"]),
("C109","Simulation of a band configuration","tef-band without -m turns every band section into the band of its type (numbers given, 1 for those left out), reads offsets and types, pairs Fermi levels and temperatures (a single value serves for all of the other), finds Fermi levels from reference data if 'data @ property' is given, and writes for every property asked for the column of its values: the sums over the bands, each shifted by its offset and counted with the sign of its type. Command-line settings take precedence. Offsets can only be left out together with types, a LinearBand always fails, a short type list drops bands silently.","all configurations, numbers of bands, points and properties","unbounded texts and lists over real arithmetic",[f"{B}:parse_Bands",f"{B}:EXECMETA",f"{I}:do_band"]),
("C110","Experimental data through a single-band model","tef-band -m writes for every row the data columns S T C N K the file has or allows to derive (with their signs, unless --bare), followed by the properties the chosen model derives from the magnitudes of the data, or those named by -p in the order of their names; the signs of the data do not matter for the derived columns, every row has the same columns; it stops with the documented error without a positive gap for the Kane model (before reading the file) and when required data are missing, naming exactly these.","all datasets, options and rows","decision table over all files and options with real data",[f"{I}:do_band",f"{B}:EXECMETA"]),
("C111","Tables written can be read back","A table written by any of the commands (four decimals, say, as '%.4f') is read back by np.loadtxt, by TEdataset.from_file and by tef-refine with the same rows and columns in the same order, each number within half a unit of its last decimal and with its sign; writing the numbers read gives the same file. Without --bare a title line and a line of labels (two blanks between the names, the keys of the dictionary unless others are given) precede, each behind a hash. With --headers the label line has no hash: TEdataset.from_file still reads the file, np.loadtxt (used by the other commands) raises ValueError. tef-format -d, which splits at tabs, semicolons and commas, loses every number of such a file.","all tables with at least one column, all numbers, all numbers of decimals, all labels without line breaks","round trip over all numbers (rounding, signs, zeros) and all table sizes and header options",[I+":_to_file",L+":TEdatasetBase.parse_datafile",L+":TEdataset.from_file",L+":TEdataset2.from_file"]),
("C112","tef-engout from table to table","tef-engout writes one row for every data row but the first: cold side (first temperature), hot side, engineering power factor and figure of merit, largest power, efficiency. With -R the resistivities of the file are integrated as they are. With -p the leg with the greater mean Seebeck coefficient is the p-type one (the first if equal); exchanging the columns of the legs, or negating both Seebeck coefficients, does not change the table. ValueError for fewer than 4 (7 with -p) columns, for a length that is not positive, and for a single leg with more than 4 columns (despite the message 'at least 4'); IndexError for a single row; no other failure.","all tables, all lengths, both device types, with and without -R","the table must be independent of the order of the legs for all inputs; all widths and lengths",[I+":do_engout",E+":GenPair.valuate",E+":GenLeg.valuate"]),
("C113","tef-ztdev from table to table","tef-ztdev writes one row per data row: first temperature, temperature, efficiency at the optimal current, device ZT of the two; efficiency and ZT of the first row are zero, columns behind the fourth do not matter. With -y every row (Tc, Th, efficiency, ...) gets its own device ZT, NaN where one of the three is. The table written by the first form, fed back with -y, is written again unchanged. IndexError for an empty file (ValueError with -y), ValueError for fewer than 4 (3) columns.","all tables and all outcomes of the search for the optimal current","idempotence over all tables, including NaN efficiencies",[I+":do_ztdev",Z+":valuate",Z+":cal_ZTdev"]),
("C114","Runs of tef-interp, one after the other","tef-interp takes its sampling points from the first column of the output file if there is one (the number of points and the range, even a malformed one, are then ignored), otherwise from the range or the number of points; it writes the sampling points and the interpolation of every column at them, to four decimals. A run changes only the output file, and not even that if it fails. Repeating a run (output file other than the input file) changes nothing from the third run on, whatever happened before. With --bare the sampling points are not written and the next run samples at the first data column, losing the results. A missing input, a table of one column or of one row is refused.","all files, options, interpolation methods and numbers of runs","histories of runs of any length over all file contents",[I+":do_interp",I+":_to_file",M+":vinterp"]),
("C115","Runs of tef-mixing","tef-mixing writes a table of the layout of its inputs (at least two rows and columns), each number the weighted sum of the numbers at its place times the scale (or over the sum of the weights), to four decimals. Inputs that are one row or one column are not told apart: the output file is a column always, a row comes out transposed and is mixed with columns without complaint; without an output file they are a TypeError. Single numbers fail and leave the output file empty. Different layouts and missing files are refused without touching a file.","all files, weights and scales","all table sizes and numbers of files",[I+":do_mixing",M+":mixing"]),
("C116","The text of an alloy","Alloy.from_string reads a flat formula (element symbols and compositions in parentheses, each with an optional plain decimal amount, separated by nothing, blanks, underscores or backslashes) as one site per different part in order of first appearance, holding the composition of the part times the last amount written for it, under the names given or A, B, C, ... (at most 26). Alloy.to_string (styles join and split) followed by from_string with the same names gives the same alloy, if the sites have different compositions and the numbers are printed exactly. A part that cannot be read or leaves its stoichiometry open (FeCoNi) is a ValueError, one without atoms a ZeroDivisionError. The search for groups always ends.","all alloys, all flat formulas, all name lists and flags","round trip and parsing over unbounded formulas; termination of a rewriting loop on all texts",[L+":Alloy.to_string",L+":Alloy.from_string",L+":Alloy.from_compounds"]),
("C117","Alloy texts that do not come back","Limits of C116: two sites of equal composition are written as one (the atoms of the earlier are lost); with omit_one=False a site X of n atoms is written X1n and read back as that longer number; texts in OriginLab style are refused (ZeroDivisionError) although from_string prepares for them; lower-case letters after a group are ignored, or an IndexError if they start with x.","all such alloys and texts","over all alloys and texts",[L+":Alloy.to_string",L+":Alloy.from_string"]),
("C118","Runs of tef-format, one after the other","tef-format writes a temperature column followed by those of conductivity, Seebeck coefficient and thermal conductivity that the data have or allow to derive (the conductivity as 1E4/R or 1.602176634 N U of one block), each interpolated at the temperatures with its own method, to four decimals; with -c the eleven columns T C S K L Ke Kp PF ZT ZTave CF, or a failure if one of C, S, K is missing. With -d every property has as many temperatures as values and all are finite. The temperatures are the first column of the output file if there is one (step, maximum and --no-rt are ignored then), otherwise a series up to --tmax or the largest temperature of the data. A run changes only the output file (the given one, or base_suffix.txt in the current directory for an input dir/base.ext), and nothing if it fails; repeated runs settle after the second. With --headers the second run always fails with ValueError. An instrument file on the command line is read with or without 'file:'; but --CTA for a configuration with ZEM (or the reverse) is a ValueError. A given L column is not used.","all files, options, interpolation methods and numbers of runs","histories of runs of any length over all file contents and options",[I+":do_format",I+":_to_file",L+":TEdataset2.from_file",L+":parse_TEfile",M+":vinterp"]),
("C119","Runs of tef-refine and tef-mixing --extend on files","A run of tef-refine changes only its output file (nothing if the input is missing or a column is not a number). Without -c it always succeeds and np.loadtxt makes of the output exactly what it makes of the input. With -c the output holds the picked cells of the rows before the first row lacking a column, then IndexError; refining in place therefore destroys the rest of the data. Refined in place without -c, all runs after the first leave the file as it is. tef-mixing --extend changes only its output file; the numbers read from the output are the tables of the inputs side by side, as many rows as the shortest (with --padding: as the longest, filled up). With --raw-extend a comment in one input hides the columns of all later inputs in that row. With the output on the first of two inputs every run appends the columns of the second once more.","all files, options, column lists and numbers of runs","histories of runs of any length, crash points, all file contents",[I+":do_refine",I+":do_mixing"]),
("C120","Runs of tef-cutoff on files","A run of tef-cutoff changes only its output file, and nothing if it fails; it succeeds exactly if the input is a table of numbers, the method is a known one (any case of letters) and all columns listed exist. Without -m every run fails with ValueError although the help names a default. Read back, the output has the rows of the input with the columns asked for multiplied once by the factor at the first cell, the others unchanged, to four decimals; with --bare only those columns, in the order asked for. Onto another file, a second run changes nothing; in place every run multiplies once more. With smoothstep, rows below the transition never change (to four decimals), rows above it are zero, and the factor falls from 1 to 0 through 1/2 at the threshold.","all files, options, tables and numbers of runs","histories of runs of any length, all tables and column lists",[I+":do_cutoff",M+":smoothstep",M+":fermidirac"]),
("C121","Reading configuration files","A configuration file showing sections with options, with any comments, empty lines, indentation and values over several lines, is read as exactly those sections and options in that order: names keep their case and inner spaces, a value ends at a comment that follows a blank and nowhere else, the first = separates name and value, values over several lines keep their lines and inner empty lines. A file cannot be read in two ways. Comment lines may be added or removed anywhere. A file with the same section or option twice, with a line outside any section, or with a line at the margin that is neither a header nor has a = is refused. Options missing in a section come from [DEFAULT].","all files, names, values, comments and layouts","files of any length and layout",[U+":CfgParser",K+":parse_KappaFit",B+":parse_Bands"]),
("C122","The substituted configuration reads back","Whatever configuration file (any layout, comments, order) is fitted, the configuration that tef-kappa writes with the fitted values can be read: it shows the same sections and options in the same order, with the value of every fitted variable replaced by the number written and nothing else changed; no variable is left to fit; and the model it describes has the thermal conductivity of the fitted model at the written values. Exceptions: bounds on a line of their own make the new file unusable, a value line that looks like a section header makes the substitution fail.","all configuration files with one-line variable declarations, all values, all models","files of any length and layout; round trip through two parsers",[K+":parse_KappaFit",U+":CfgParser",I+":do_kappa"]),
("C123","A fit leaves the model at the last point tried","Whatever the optimiser does, a fit starts at the current values of the free variables listed, in order, within their bounds, and every question of the optimiser is answered by the model with these values and up-to-date constrained variables. Afterwards the free variables hold the values of the last question put (within the bounds), not the values returned; the model gives exactly the last answer at the data; all parameter sets of the listed variables agree; nothing else changes, also if the fit fails; a second fit starts at the last question. A start value or bounds given, or something that is not a variable, is a ValueError without effect; with nothing to fit the model is evaluated.","all optimisers (any questions depending on the answers, any result or error), all sets of variables with constraints, all models and data","the optimiser's questions, their number and order are unknown and depend on the answers",[K+":BaseKappaModel.fit",K+":BaseKappaModel._cal",K+":Variable"]),
("C124","Whole runs of tef-kappa","A run of tef-kappa that fails (file missing, configuration wrong, variable out of bounds, no points) leaves every file as it was. A successful run writes the main table, each detail table and the substituted configuration for which it has results, and no other file; a detail file of an earlier run is never removed. After an interrupted run, a run from the start ends in exactly the same files as an undisturbed one; a repeated run changes nothing. A setting on the command line has the same effect as the same setting in the section entry. With -Q there is only the main table with one column. The prediction belongs to the configured model at the values the optimiser asked for last, and the columns read back are the predicted ones. The substituted configuration can be run again: it fits nothing, predicts with the fitted values as written, and needs its points given.","all configuration texts, all options, all files before the run, all optimisers and number formats","a run depends on the whole text of the configuration, on the dialogue with the optimiser and on the files left by earlier or interrupted runs",[I+":do_kappa",K+":parse_KappaFit",U+":CfgParser"]),
("C125","Whole runs of tef-band","A run of tef-band that fails (no input, a broken configuration, no gap for the Kane model or one that is not positive, required data missing) leaves every file as it was; the error names the missing data. A successful run writes one file, named on the command line or after the input, and repeating it, also after an interruption that left anything in the output file, ends in the same files; without a name the output is never the input. A setting on the command line (the last one counts) has the same effect as the same setting in the section entry. The output of a simulation has one column per property asked for, in this order, and one line per point with the sums over the bands. The output of a model run has one line per row of the data file: the data, and what the model says about them; comments, blank lines and ignored columns do not count, conductivity and carrier density are derived from resistivity and mobility where needed. Read again, the output gives the columns.","all configuration texts, data files, options, files before the run, solvers and number formats","a run depends on the whole text of its input, on the command line and on the files left by earlier or interrupted runs",[I+":do_band",B+":parse_Bands",B+":EXECMETA",L+":TEdataset",I+":_to_file",I+":_StoreDict"]),
("C126","Numbers written and read again","A number written as %.6E or %.9g (any number of digits) and read by float comes back with its sign as the nearest number with that many significant digits, of two equally near ones the even one, hence within half a unit of the last digit; a number with no more digits comes back unchanged; the order of numbers is kept; writing again gives the same text. Tables written with %.6E read back with this accuracy. A compound written by to_string and read by from_string keeps its elements and their order; amounts that are zero or from 1e-4 to 999999999 come back with nine significant digits. A smaller or greater amount is written with an exponent that from_string does not read: it comes back as a number between 1 and 10. The sign of a negative amount is lost.","all numbers, numbers of digits, tables and compounds","all rational numbers and formats; ties, carries and exponents",[I+":do_band",L+":Compound.to_string",L+":Compound.from_string",K+":parse_KappaFit"]),
("C127","Distribution functions of a multi-band model","The functions dos, trs and hall of a multi-band model add up those of its bands, each taken at the depth of the energy below (valence) or above (conduction) the band edge, so only the bands an energy lies in count. Its transport coefficients are those of these functions as one continuum: the conductivity is the integral of trs times the Fermi window over all energies, Seebeck and Lorenz number come from its first and second moments with the single sign convention of electrons, and the carrier concentration is the integral of dos of the conduction bands times f plus that of the valence bands times 1-f. hall adds all bands without sign while the Hall coefficient counts electrons negative; hall fails exactly if a band has no Hall function. Parabolic and Kane bands meet the assumptions; a linear band does not: it counts at every energy.","all lists of bands with arbitrary functions vanishing at the edge, signs, offsets, Fermi levels, temperatures, energies and moments","the statement compares integrals over the real line of arbitrary functions",[f"{B}:MultiBands.dos",f"{B}:MultiBands.trs",f"{B}:MultiBands.hall",f"{B}:MultiBands._K_n",f"{B}:MultiBands._N",f"{B}:MultiBands._CCRH"]),
("C128","Mapping of scattered data","mapping meets data at distinct places exactly when regular is 0, for both kernels (names in any case) and also when values of x or y repeat; x and y play the same role, another unit or origin of a coordinate with its scale changes nothing, predictions are linear in the data and independent of what else is asked for; log_p is the logarithm of a normal density with the kernel matrix as covariance that integrates to one over all data values. A regular number is added to all matrix entries, so that it only shifts all values at the data points by the same amount and cannot make repeated places work; a vector makes the result depend on the order. interp_gpr puts it on the diagonal, and its prediction is the curve of least cost between distance to the data and size.","all data, queries, scales, regularisations and kernel names","positive definiteness and integrals over all data of any size",[f"{M}:mapping",f"{M}:_kernel_rbf",f"{M}:_kernel_dfx",f"{M}:interp_gpr"]),
("C129","The optimum of a parabolic band","The power factor of a parabolic band has exactly one maximum as a function of the Fermi level, at one reduced level for all bands and temperatures; EFopt(T) is within 1.3e-5 kB T of it and PFmax within 2.7 parts per million of the maximal value; the conductivity is sigma0*ln(1+exp(EF/kT)); every positive conductivity and every Seebeck coefficient of the right sign belongs to exactly one Fermi level.","all parabolic bands, Fermi levels and temperatures","a maximum and uniqueness over a continuum; constants of the code against integrals",[f"{B}:APSSPB.PFmax",f"{B}:APSSPB.EFopt",f"{B}:APSSPB.trs",f"{B}:BaseBand.PF",f"{B}:BaseBand.solve_EF"]),
("C130","Band models in SI units","idos counts the states inside the sphere of the documented dispersion (parabolic, Kane, linear) in SI units; hall is Kstar times mobility times conductivity with the mobility that belongs to trs and dos; from_DP and from_UWT give the documented sigma0 in S/cm; the unit constants of the band classes and of RSPB are the documented combinations of the physical constants.","all parameters and energies","formulas with unit conversions over continua",[f"{B}:APSSPB.idos",f"{B}:APSSKB.idos",f"{B}:LinearBand.idos",f"{B}:APSSPB.hall",f"{B}:APSSKB.hall",f"{B}:APSSPB.from_DP",f"{B}:APSSPB.from_UWT",f"{B}:RSPB"]),
("C131","The gap of a Kane band","At the same masses, scattering prefactor, Fermi level and temperature, a Kane band with a smaller gap has a strictly smaller conductivity, mobility, thermopower (in magnitude order of its sign) and Hall term and a strictly larger carrier concentration, for carriers of either sign; the parabolic band lies strictly beyond all of them; and as the gap grows every property of the Kane band tends to that of the parabolic band.","all parameters, gaps, Fermi levels, temperatures, signs and properties","inequalities and a limit over continua, for the quadrature that the program uses",[f"{B}:APSSKB",f"{B}:APSSPB",f"{B}:BaseBand"]),
("C132","Multi-band models inside multi-band models","A MultiBands object can be appended to another one as a band, to any depth. Concentration and conductivity are then the sums over all single bands, each at the Fermi level measured from its edge through all levels; but the contribution of a band to the Seebeck coefficient has the sign of its carriers only under an odd number of levels and the opposite sign under an even number, and its Hall term the sign of the innermost level. In particular a model appended to an empty one as a conduction band at an offset keeps concentration, conductivity, Lorenz number and Hall coefficient (shifted by the offset) and reverses its Seebeck coefficient, also that of the appended object itself; as a valence band all is evaluated at the mirrored Fermi level. Without nesting the model is the flat one.","all trees of bands, offsets, types, Fermi levels and temperatures","all depths and shapes of nesting",[f"{B}:MultiBands.append",f"{B}:MultiBands._K_n",f"{B}:MultiBands._CCRH"]),
("C133","What the text of a model or data set tells","str() of a band model lists its bands, nested models included, so that two models have the same text exactly if they have the same classes, order, nesting, valence/conduction marks and, to six significant digits, the same parameters and offsets; with numbers of at most six digits the text determines the model. The text has one line per band and appending a band appends its line. str() of a data set determines the names, order, lengths and (TEdataset2) temperature columns of its properties.","all models of any size and nesting, all parameters, all data sets with names a group text can give","unbounded nesting; injectivity of a text format",[B+":MultiBands.__str__",B+":APSSPB.__str__",B+":APSSKB.__str__",B+":LinearBand.__str__",L+":TEdataset.__str__",L+":TEdataset2.__str__"]),
("C134","Dot access to dictionaries","For an AttrDict (also ListDict, Compound, Alloy, option dictionaries), after any history of item and attribute assignments and deletions: d.name reads d['name'] (same value or KeyError) unless the class uses the name or it was assigned with a dot; assigning with a dot never changes the entries but hides the entry from dot access from then on; hasattr never answers no; for every element symbol and site name dot access to compounds and alloys works.","all histories of item and attribute operations, all names, all entries","unbounded histories of interleaved item and attribute operations",[U+":AttrDict.__getattr__",L+":Compound",L+":Alloy"]),
("C135","A leg with constant properties has the known device ZT",
"For a table of which conductivity, Seebeck coefficient and thermal conductivity are the same in all rows, the scan over the relative current gives the closed formula at every temperature (NaN beyond the limiting current), its efficiency never exceeds the textbook efficiency of Z times the mean temperature and reaches it at a known current inside the searched interval; with a search that finds the best current the device ZT is Z times the mean temperature for every number of rows, and tef-ztdev and tef-engout report the same efficiency. The searched interval contains currents with NaN efficiency whenever 2*Z*(Th-Tc) > 1.",
"all constant materials, tables of any length, currents",
"an optimum over all currents and any number of rows; tests can only sample both",
[Z+":cal_Yita",Z+":optim_u",Z+":valuate",E+":GenLeg.valuate"]),
("C136","References in configuration files",
"In configuration files $$ stands for a dollar sign, ${name} for the value of that option in the same section (or in [DEFAULT]) and ${section:name} for that of another section. A value is read as the text in which all references are replaced, each value being read in the section in which it is asked for; one from [DEFAULT] therefore sees the options of the section using it. This holds up to ten levels of values containing dollar signs; deeper ones, and options that refer to each other in a circle, cannot be read. A value without dollar signs, hence a file without them, is read as it stands; every text can be written by doubling its dollar signs. A reference within a section may be replaced by the raw value. References to missing options, with several colons, unclosed or empty ones and single dollar signs are errors. A setting on the command line is taken over for its option alone, or refused with ValueError if it has a dollar sign that is neither doubled nor begins a reference.",
"all configurations, values, nestings of references and settings",
"a statement about all texts and all graphs of references between options",
[U+":CfgParser.__init__",K+":parse_KappaFit",B+":parse_Bands",L+":parse_TEfile"]),
("C137","Runs of tef-ztdev and tef-engout on files",
 "A run of `tef-ztdev` or `tef-engout` changes no file but its output file, and none if it fails (missing input: IOError). The output reads back as the computed table to four decimals under two comment lines (title and column names; none with `--bare`): `tef-ztdev -y` needs at least one row and three columns and writes Tc, Th, Yita of every row and the device ZT these three give (NaN if one of them is); `tef-ztdev` writes a row per row, Tc the temperature of the first row; `tef-engout` succeeds on a table of numbers exactly if it has two rows or more, the length is positive and there are four columns (leg) or at least seven (pair), and writes six columns and a row per row but the first. Repeating a run onto another file changes nothing; the default output is never the input. `tef-ztdev -y` in place settles after two runs, its first three columns after one; `tef-ztdev` followed by `tef-ztdev -y` keeps Tc, Th and Yita. `tef-engout` in place destroys its input and every further run fails with ValueError.",
 "all file systems, all tables, all options, any number of runs, any writing/reading of numbers that is correct to four decimals",
 "Tests run a command once on one sample file; that repeated and chained runs settle, and that nothing else is ever touched, concerns all files and all sequences of runs.",
 [I+":do_ztdev",I+":do_engout",I+":_suffixed"]),
("C138","Documented formulas of the generator",
 "For any material, the best efficiency `GenLeg` reports is the documented `eta = eta_c (sqrt(1+ZTeng a1/eta_c)-1)/(a0 sqrt(1+ZTeng a1/eta_c)+a2)` with `a_k` the modified temperatures (hot, mean, cold for constant properties) over `Th`; the heat flow is the documented `A/L <K> + I Th S(Th) - W_J I^2 R - W_T I <tau>` and the power `Voc^2/R m/(1+m)^2` at load `m R`; the reported `W_T` is the documented double integral of the Thomson coefficient. Deviations: the reported `W_J` exceeds the documented one (with which the heat flow holds) by `Tc/(Th-Tc)`, and the reported `alpha_k` are the documented ones times `Th/S(Th)`, so that the documented formula with the reported coefficients gives the reported efficiency only if `S(Th)` is the number `Th`, and less if it is smaller.",
 "all integrals (hence all property tables and temperatures), all geometries, currents and loads; for the double integrals all continuous resistivities and continuously differentiable Seebeck coefficients",
 "Identities between reported quantities for every material; a test compares numbers for one material, and the reported weight factors enter no other output.",
 [E+":GenCore._get_mdfs",E+":GenCore._get_wgts",E+":GenCore._get_prfs",E+":BaseDevice","docs/usage/engineering_output.rst"]),
("C139","Runs of the tools at the same time",
 "Let several runs of the command line tools (`tef-interp`, `tef-mixing`, `tef-refine`, `tef-cutoff`, `tef-ztdev`, `tef-engout`, `tef-format`, `tef-band`, `tef-kappa`) be started in one directory, none writing a file that another reads or writes. Then for every interleaving of their single reads and writes, each run that ends ends with the same result, and leaves the same output files, as if it had run alone, even if other runs are still at work or were killed; when all have ended the files are as after running them one by one in any order; every run ends after a number of its own steps that depends on its files only. At any moment an output file is as before or holds the beginning of what the run writes to it; other files are unchanged. Runs that do not read their own output files can be killed at any moment and repeated, and the files are then as if nothing had happened.",
 "all numbers and kinds of runs, all contents of the directory, all schedules (step by step, down to single characters), all moments at which runs are killed, all orders of the sequential runs",
 "The interleavings and crash points cannot be enumerated by tests, and a test run hardly ever hits the window between opening and writing an output file.",
 [I+":do_interp",I+":do_mixing",I+":do_refine",I+":do_cutoff",I+":do_ztdev",I+":do_engout",I+":do_format",I+":do_band",I+":do_kappa",I+":_to_file"]),
("C140","The Lorenz number of a parabolic band",
 "For a parabolic band with acoustic-phonon scattering (APSSPB), at every temperature and Fermi level, the Lorenz number L lies strictly between 2 (kB/e)^2 and (pi^2/3) (kB/e)^2 (1.485 and 2.4431 in 1E-8 W.Ohm/K^2). It rises strictly with the Fermi level, tends to the two bounds far below and far above the band edge and takes every value between them at exactly one Fermi level. L is a function of the size of the Seebeck coefficient alone, whatever the masses, prefactors, kind of carriers and temperatures, and the larger Seebeck coefficient goes with the smaller L (so the L valuate deduces does not depend on whether temperatures are given). The electronic thermal conductivity rises strictly with the Fermi level and lies strictly between the Wiedemann-Franz values of these two bounds.",
 "all parabolic bands, Fermi levels, temperatures, both kinds of carriers, all pairs of these",
 "Strict bounds and monotony over two continua (and limits at infinity); tests sample finitely many levels, and the bounds are approached so closely that rounding hides a violation.",
 [B+":APSSPB",B+":BaseBand.L",B+":BaseBand.Ke",B+":BaseBand.S",B+":APSSPB.valuate"]),
("C141","The transport properties of a linear band",
 "For a LinearBand at every temperature: the conductivity rises strictly with the Fermi level but stays below sigma0, and takes each value between 0 and sigma0 at exactly one level (so solve_EF('C', value, T) has no solution from sigma0 on); the Seebeck coefficient has the sign of the carriers, falls strictly in size, and takes each non-zero value of that sign at exactly one level; the Lorenz number rises strictly from (kB/e)^2 to (pi^2/3)(kB/e)^2 and lies strictly between; the power factor has exactly one maximum, at one reduced level between 1.14 and 1.15 kB T outside the band for all linear bands and temperatures, with a Seebeck coefficient between 196 and 199 uV/K there.",
 "all linear bands, Fermi levels, temperatures, both kinds of carriers",
 "Uniqueness of solutions and of a maximum, and strict bounds, over a continuum of levels; tests sample finitely many.",
 [B+":LinearBand",B+":BaseBand.solve_EF",B+":BaseBand.L",B+":BaseBand.S",B+":BaseBand.PF"]),
("C142","The Fermi level of a given carrier concentration",
 "For a parabolic, Kane or linear band with positive mass, gap and velocity at every temperature, N is positive, rises strictly with the Fermi level and takes every positive value at exactly one level; the same holds for a MultiBands model whose bands all carry electrons, and for one whose bands all carry holes with N falling. With bands of both kinds N counts electrons and holes together: it has a positive minimum at one level, falls strictly below and rises strictly above it, so that solve_EF('N', value, T) has no solution below the minimum and exactly two, one on either side, for every value above it. For two mirrored bands the minimum is half-way between the edges, and the Seebeck coefficient vanishes there.",
 "all numbers of bands of the three kinds, offsets, carrier signs, temperatures, Fermi levels, concentrations",
 "Existence, uniqueness and the number of solutions over a continuum; a solver run in a test finds one level and says nothing about others or about values without one.",
 [B+":BaseBand.N",B+":BaseBand.solve_EF",B+":MultiBands._N",B+":APSSPB.idos",B+":APSSKB.idos",B+":LinearBand.idos"]),
("C143","The transport properties of a Kane band as functions of the Fermi level",
 "For an APSSKB band with positive sigma0 and gap at every temperature: the conductivity rises strictly with the Fermi level from 0 towards the limit 3*sigma0*Eg/(4*kB*T), which it never reaches, and takes every value in between at exactly one level; the Seebeck coefficient has the sign of the carriers, its size falls strictly from infinity in the gap to 0 in the band, always exceeds the distance to the edge over e*T, and every non-zero value of the right sign belongs to exactly one level, so that solve_EF('S', value, T), on which APSSKB.valuate rests, has one solution.",
 "all Kane bands, Fermi levels, temperatures, Seebeck values, both kinds of carriers",
 "Existence and uniqueness of solutions of an integral equation over a continuum of levels, gaps and temperatures.",
 [B+":APSSKB.trs",B+":APSSKB.valuate",B+":BaseBand.solve_EF",B+":BaseBand.S",B+":BaseBand.C"]),
("C144","Electrons and holes are treated alike",
 "If a MultiBands model holds the bands of another model reflected at an energy c (the same integrals, the other kind of carriers, the edge at 2c minus the offset), in any order, then each of its sixteen properties at c+x equals that of the other model at c-x, with the opposite sign for K_1, CS, S and the Hall properties, and fails where the other fails; Kbip is the same. So a model that is its own mirror image has even and odd properties about its mid-gap, where the Seebeck and Hall coefficients vanish.",
 "all models of any number of bands with arbitrary integrals (exact or by quadrature), reflections, Fermi levels, temperatures, properties",
 "A symmetry between two models for every number and order of bands and every Fermi level.",
 [B+":MultiBands._N",B+":MultiBands._K_n",B+":MultiBands._CCRH",B+":MultiBands.Kbip",B+":BaseBand"]),
("C145","The Seebeck coefficient of a model of several bands",
 "For MultiBands models of parabolic, Kane and linear bands with exact integrals: with bands of both kinds the Seebeck coefficient is continuous in the Fermi level, vanishes far on either side and has a largest size; solve_EF('S', value, T) has no solution beyond it, and when some level e reaches a value, every value of the same sign and smaller size is reached both below and above e, so the equation has at least two solutions and the initial level selects one. With bands of one kind S has the sign of the carriers, grows without bound in the gap, vanishes far in the bands and takes every value of that sign.",
 "all lists of Spb/Skb/Linear bands with positive conductivity prefactors (and Kane gaps), signs, offsets, temperatures, Fermi levels",
 "The number of solutions of an equation over all real Fermi levels, for every list of bands.",
 [B+":BaseBand.S",B+":BaseBand.solve_EF",B+":MultiBands._K_n",B+":APSSPB._K_n",B+":APSSKB",B+":LinearBand"]),
("C146","The conductivity of a model of several bands",
 "For MultiBands models of parabolic, Kane and linear bands with exact integrals: with bands of one kind the conductivity is positive, rises strictly with the Fermi level for electrons and falls strictly for holes, and every value between 0 and a value taken belongs to exactly one level (every positive value, if a parabolic band is among them). With bands of both kinds it stays above a positive value, below which solve_EF('C', value, T) has no solution; if all bands are parabolic it has exactly one minimum and every larger value belongs to exactly two levels, one on either side.",
 "all lists of Spb/Skb/Linear bands with positive conductivity prefactors (and Kane gaps), signs, offsets, temperatures, Fermi levels, values",
 "The number of solutions of an equation over all real Fermi levels, for every list of bands.",
 [B+":BaseBand.C",B+":BaseBand.solve_EF",B+":MultiBands._K_n",B+":APSSPB._K_n",B+":APSSKB",B+":LinearBand"]),
("C147","n-type legs, and pairs of a leg and its mirror",
 "Negating every Seebeck coefficient of a table changes nothing in what ztdev.valuate returns, provided the one-dimensional search is mirrored with it (and for any two searches that find minima, the efficiency and the device ZT agree anyway); the textbook value C135 proves for constant p-type properties holds for n-type ones. GenLeg.valuate returns the same table for a leg and for its mirror. A GenPair of a leg and its mirror with equal lengths and areas is that leg cut in two: on the same total area half the current, twice the voltage, the same power, heat and efficiency at every current; GenPair.valuate returns the table GenLeg.valuate returns for the leg alone.",
 "all tables (for the pair: rising temperatures and positive conductivities), all lengths, areas, currents and search outcomes",
 "An equality between the outputs for every table and its mirror image, including the failures.",
 [Z+":valuate",Z+":optim_u",Z+":cal_Yita",E+":GenLeg.valuate",E+":GenPair.valuate",E+":BaseDevice"]),
("C148","The Debye thermal conductivity as a function of the temperature",
 "For KappaDebye with positive continuous rates and the integral computed exactly: with rates that do not depend on the temperature the lattice conductivity rises strictly with the temperature, from 0 in the cold to the value with classical heat capacities, which it never exceeds; if no rate grows faster than in proportion to T, T*kappa rises strictly; with ThreePhonon scattering among otherwise temperature-independent rates T*kappa tends to kB*(wD-eps)/(2*pi^2*vs*A'), whatever the other mechanisms, and (Theta=0) stays below it. GrainBoundary, PointDefect, Nanoparticles, Dislocations, StackingFaults and Cahill rates do not depend on the temperature.",
 "all Debye models with positive continuous rates, all temperatures, all lists of mechanisms, all parameters of ThreePhonon with positive coefficient and Theta >= 0",
 "Monotonicity between every two temperatures and limits at 0 and infinity.",
 [K+":KappaDebye.__call__",K+":KappaDebye._spectral_factor",K+":ThreePhonon",K+":GrainBoundary",K+":PointDefect",K+":Nanoparticles",K+":Dislocations",K+":StackingFaults",K+":CahillScattering"]),
("C149","Known results recovered by the Debye model",
 "KappaDebye(vs, vs_to_td(vs, Va), [CahillScattering(alpha)]) with the integral computed exactly is the minimum thermal conductivity of Cahill, Watson and Pohl divided by alpha, (pi/6)^(1/3) kB n^(2/3) 3 v (T/Theta)^2 int x^3 e^x/(e^x-1)^2 dx in SI units, up to kB eps^2/(4 pi vs alpha), less than 1e-15 W/(m.K), at every temperature; it rises strictly with T to the equipartition value kB (wD^2 - eps^2)/(4 pi vs alpha). With ThreePhonon given by its parameters (and any mechanisms with constant rates) T*kappa tends to M v^3 (6 pi^2)^(1/3)/(2 pi^2 A gamma^2 V^(2/3)), M being Ma times the mass constant of the code, up to the share eps/wD.",
 "all positive sound velocities, volumes, masses, alpha, A, Gruneisen parameters, Theta >= 0, temperatures and lists of further constant rates",
 "Equality of an integral with a formula of the literature for all parameters, and limits.",
 [K+":KappaDebye.__call__",K+":KappaDebye.vs_to_td",K+":CahillScattering",K+":ThreePhonon"]),
("C150","Klemens' formula is the classical form of the Debye model",
 "For every KappaDebye model with positive continuous rates and exact integral, at every temperature, the lattice conductivity lies between its classical form (every mode with the heat capacity kB) and that form times exp(-(Theta/2T)^2). With ThreePhonon (Theta=0, coefficient A') and PointDefect (disorder G0*x*(1-x)) the classical form is what KappaKlemens returns for Kpure = kB*wD/(2*pi^2*vs*A'*T) and the same vs, td, G0, Va, to eight digits (the two classes use slightly different constants) and up to the share eps/wD of Kpure; so the Debye value lies below KappaKlemens(x) and above exp(-(Theta/2T)^2) times it.",
 "all Debye models, temperatures; all positive velocities, Debye temperatures, coefficients, volumes, disorder parameters and compositions with u^2 >= 1e-12",
 "Two-sided estimate between two independent classes for all parameters.",
 [K+":KappaDebye.__call__",K+":KappaKlemens.__call__",K+":KappaKlemens.u2",K+":ThreePhonon",K+":PointDefect"]),
("C151","Carnot's limit of the simulated generator with varying properties",
 "Whenever the size of the Seebeck coefficient of the table has one sign and does not fall with the temperature, the efficiency which GenLeg.simulate returns at any reduced current with positive heat input, and every efficiency listed by GenLeg.valuate, is at most 100*(1-Tc/Th); the heat input is positive for every reduced current from 0 to 1. The same holds for GenPair with any positive length and area ratios when it holds for the Seebeck coefficients of both legs. For general integrals (Th <= 2*Tc) the limit holds at all currents exactly if the Seebeck-weighted mean temperature is at least (Tc+Th)/2 or Zeng*(Tc+Th-2*Ts)^2 <= 4*(Tc+Th-Tr); a table with a Seebeck coefficient falling from 900 to 100 uV/K between 300 K and 600 K gets 67.6 % where Carnot allows 50 %.",
 "all rising tables with positive conductivities and a Seebeck coefficient of one sign and non-falling size, all pairs of their temperatures, leg sizes and currents; all integrals for the exact condition",
 "Inequality over all tables and currents; the exact boundary is a statement about all of them at once.",
 [E+":GenCore._simulate",E+":GenCore._get_prfs",E+":GenCore._get_mdfs",E+":GenLeg.simulate",E+":GenLeg.valuate"]),
("C152","Which rows of the table matter, and what a better material changes",
 "The integrals, profiles and simulated results of a leg between two temperatures of its table depend only on the rows from Tc to Th: rows below and above may be present or absent. If the electrical conductivity is raised by a common factor c >= 1, the Seebeck coefficient multiplied by a common factor s with s^2 >= 1, and the thermal conductivity lowered at any temperatures, then the power at every reduced current is c*s^2 times as large, the efficiency at every reduced current from 0 to 1 does not fall and rises inside for c*s^2 > 1, and likewise the best efficiency ('YitaMax').",
 "all rising tables with positive columns, all pairs of their temperatures (Th <= 2*Tc for the comparison), factors, lowered thermal conductivities, leg sizes and currents",
 "Comparison of two arbitrary materials at all currents.",
 [E+":GenCore._get_itgs",E+":GenCore._simulate",E+":GenCore._get_prfs",E+":GenLeg.build",E+":GenLeg.simulate"]),
("C153","Engineering figures of merit never exceed those of the material",
 "For every table with positive conductivities, whatever the temperature dependence (the Seebeck coefficient may change sign), the engineering figure of merit ZTeng of a leg between two temperatures of the table is at most the largest z = S^2/(rho*kappa) of the rows between them times Th-Tc, and PFeng is at most the integral of the power factor, hence the largest power factor times Th-Tc; so are the columns of GenLeg.valuate. Constant properties attain the bounds. The ZTeng of a GenPair is at most the largest z of both materials times Th-Tc, for all positive length and area ratios.",
 "all rising tables with positive electrical and thermal conductivities, all pairs of their temperatures, all positive ratios",
 "Cauchy-Schwarz-type inequality over tables of any length.",
 [E+":GenCore._get_itgs",E+":GenCore._get_prfs",E+":GenLeg.build",E+":GenLeg.valuate",E+":GenPair.build"]),
("C154","A varying material does not beat the textbook efficiency of its best figure of merit",
 "If, with rising temperature, neither the size of the Seebeck coefficient (one sign) nor the electrical conductivity falls, then the efficiency that GenLeg.simulate returns at every reduced current from 0 to 1, and every efficiency listed by GenLeg.valuate, is at most the textbook efficiency of a constant-property leg with ZT = z*(Tc+Th)/2, z being any bound of S^2/(rho*kappa) over the rows between the temperatures; the thermal conductivity may vary in any way.",
 "all such rising tables, pairs of their temperatures, bounds z, leg sizes and reduced currents in [0,1]",
 "Inequality between two formulas over all tables and currents.",
 [E+":GenCore._simulate",E+":GenCore._get_prfs",E+":GenLeg.simulate",E+":GenLeg.valuate"]),
]
out=os.path.join(os.path.dirname(__file__),'..','properties.jsonl')
with open(out,'w') as f:
    for i,t,s,q,w,a in P+EXTRA:
        f.write(json.dumps(dict(id=i,title=t,statement=s,quantifier=q,why_tests_cant=w,anchors=a))+'\n')
print(len(P+EXTRA))

# Formal model of pysal/pointpats in Lean 4: design

## Approach

* One model file per Python module under `lean/Verif/Model/`, mirroring the code function by function; each definition cites
  the file and lines it models and says where it simplifies.
* Specifications that do not mention the model are in `lean/Verif/Spec/`.
* Property theorems are in `lean/Verif/Props/`, one file per group, with non-vacuity examples beside them; helper lemmas are
  in `lean/Verif/Lemmas/`.
* Numbers: an arbitrary linearly ordered field `K` (with floor where needed), so that everything is executable over the
  rationals and specialises to the reals; the reals where square roots or trigonometry occur. Floating point rounding is
  NOT modelled unless a theorem says so.
* Python exceptions are values of `Except PyErr`. Random generators are arbitrary streams of draws. Spatial indexes are
  relations that admit every answer a correct index could give (all tie-breaking orders).
* Where the code does not have a property a user would expect, the negation is proved with a concrete witness, and the part
  that does hold is proved under the suffix `_partial`.

## Plan per property

* **C01** Point-derived attributes never depend on the history of reads and updates. State machine: heap-free record of a pattern (table, names, window, cache). Invariant over histories by induction: every filled cache slot equals its formula on the constructor's table.
* **C02** lambda_window is the intensity over the current window. Same machine. Expected FALSE (cached value survives a window assignment): refute with a history; prove `_partial`: value is n/area of the window at first read.
* **C03** Default window is the bounding box, so default intensities agree. Shoelace area of the ring built by poly_from_bbox; bbox lemmas.
* **C04** The constructor does not alter its arguments. Constructor modelled with the caller's list as an explicit in/out value. Expected FALSE when names is None, coord_names given and >2 columns; `_partial` for the other cases.
* **C05** add_marks never overwrites existing data. Column store as association list with concrete strings `mark_<k>`. Expected FALSE with user-chosen names; `_partial` when all names are defaults.
* **C06** unique removes exactly the duplicate locations. drop_duplicates = keep-first filter on lists; theorem against an independent spec (Nodup, same members, sublist in order).
* **C07** unique keeps the study window. Window argument of the rebuilt pattern modelled as a value that is either a window or a bound method. Expected FALSE.
* **C08** superimpose is the union of the two patterns. Concatenate and keep-first; TypeError decision.
* **C09** explode partitions the pattern by mark. np.unique as sorted dedup; filter per value; counting theorem.
* **C10** flip_coordinates is an involution that only exchanges the coordinate columns. State machine step.
* **C11** PointPattern.knn returns the k nearest other events. KD-tree query modelled as ANY list of k+1 ids that is sorted by distance and nearest (relation); theorem for every such answer.
* **C12** A point is never its own neighbour in knn. Expected FALSE with coincident events: witness; `_partial` for distinct locations.
* **C13** Nearest neighbour distances and their summaries are consistent. Same relation; order statistics via sorted multiset.
* **C14** find_pairs returns exactly the close pairs. Set comprehension of pairs; monotonicity and cardinality by Finset lemmas.
* **C15** Hull area does not depend on the starting vertex, on closing the ring or on the position of the origin. Shoelace sum over lists, induction and ring identities.
* **C16** Membership test of a pattern looks at its coordinates. Expected FALSE for other column layouts; `_partial` when the coordinates are the first two columns.
* **C17** Rings handed to windows are closed, once. List functions.
* **C18** filter_contained keeps exactly the points inside, in order. List filter.
* **C19** The bounding box is the smallest closed axis-parallel box containing the points. min/max folds over lists in an ordered field.
* **C20** area and containment of a bounding box. Ordered field algebra.
* **C21** k_neighbors excludes the query point and returns the nearest others. Same query relation, mask-self-or-drop-last as in the code.
* **C22** build_best_tree picks an index that supports the metric. Decision table over an inductive metric type.
* **C23** prepare_hull always yields a usable region or an error. Decision table over an inductive argument type.
* **C24** mean_center is the centre of mass. Sums over lists in an ordered field.
* **C25** weighted_mean_center generalises mean_center. as C24 with weights.
* **C26** manhattan_median minimises total Manhattan distance. Median as middle of sorted list; minimality by pairing from the ends.
* **C27** std_distance is the root mean squared distance from the mean center. Real sqrt of sums.
* **C28** The standard deviational ellipse's axes and angle describe the directions of extreme spread. Real trigonometry: arctan formula turned into the double angle identity.
* **C29** Ellipse corrections only rescale. Option table.
* **C30** dtot is a convex, 1-Lipschitz-per-event total distance. Norm inequalities in the plane.
* **C31** The circle through three hull vertices is their circumcircle. Field identity.
* **C32** minimum_bounding_circle always terminates with a circle determined by hull vertices. Induction on the number of points; two points have angle 0, so at least two remain.
* **C33** minimum_bounding_circle contains all events and no smaller circle does. FALSE because of the tolerance (`_refuted`); `_partial`: Skyum's algorithm is proved for hulls without nearly flat corners (largest consecutive circle contains the polygon, removal of an obtuse corner, minimality), induction on the number of vertices.
* **C34** The list and the compiled implementation of the bounding circle agree. Simulation between two loops; without nearly flat corners the answers agree even with ties, because the smallest disc is unique.
* **C35** Rotated rectangle angles are in [0, 90). Real mod.
* **C36** Realisations of a point process have the requested size and lie in the window. Draw loop over an arbitrary stream of batches.
* **C37** runif_in_circle stays in its circle. Real trig identity, all draws.
* **C38** A Poisson cluster process can be realised. Expected FALSE: unpacking scalar rows raises.
* **C39** size / intensity resolution is total and consistent. Decision table.
* **C40** random.poisson returns the requested number of points, all inside the hull. Rejection loop over a stream.
* **C41** Splitting one stream: replications are the stream cut into pieces. Stream splitting lemma.
* **C42** The shape of simulated patterns identifies replication and observation axes. Shape function of squeeze. Expected FALSE for s = 1 / n = 1.
* **C43** random.normal uses the requested covariance. Expected FALSE: broadcasting; witness and `_partial` for diagonal or equal variances.
* **C44** Cluster samplers return the requested number of points inside the hull and near their seeds. array_split arithmetic plus stream filter.
* **C45** Replications of cluster_normal do not influence one another. Expected FALSE: state leak.
* **C46** strauss returns exactly the requested number of points inside the hull or raises. Birth/death loop as state machine with iteration cap.
* **C47** strauss with gamma = 0 is a hard core process. Expected FALSE.
* **C48** Rectangular quadrat counts add up to the number of points. Floor arithmetic in an Archimedean ordered field with floor.
* **C49** Each rectangular quadrat counts the points in its rectangle. as C48, exact cell characterisation.
* **C50** Degenerate patterns are rejected or counted by the rectangular grid. Expected FALSE: KeyError / ValueError; witness.
* **C51** Hexagonal quadrat counts add up to the number of points. Expected FALSE on boundary coincidences; `_partial` away from them, and an exact description of the events that are lost.
* **C52** Each point is assigned to a hexagon containing it. `_partial` as C51.
* **C53** HexagonM.num is the number of hexagons. Expected FALSE for odd column counts with unequal rows; `_partial` otherwise.
* **C54** The quadrat chi-square statistic is sound. Cauchy-Schwarz / algebra on lists.
* **C55** Simulation p-values of QStatistic are valid. Counting; expected FALSE part: realizations = 1 raises.
* **C56** The support of a distance statistic is well formed. Decision table + linspace.
* **C57** G is a distribution function of nearest neighbour distances. Histogram by searchsorted counts; telescoping cumulative sums.
* **C58** F is a distribution function of empty-space distances. Same.
* **C59** G and F report the share of all events. Expected FALSE when the support is short; `_partial` when it covers all distances.
* **C60** J is (1-G)/(1-F) wherever it is finite, and truncation only removes undefined values. Extended values (finite, +-inf, nan).
* **C61** Ripley's K is the normalised pair count. Pair counting.
* **C62** L is the square-root transform of K. Real sqrt.
* **C63** Simulation p-values of the Ripley family are valid. Expected FALSE (p = 0 possible); `_partial` range [0,1/2].
* **C64** Simulation results do not depend on scheduling. Permutation invariance of counting.
* **C65** f_test and f use the same empty-space distances. Expected FALSE; witness.
* **C66** The Knox statistic counts close pairs. Pair counting over any enumeration order; input mutation expected FALSE.
* **C67** Permutation p-values of the space-time tests are valid. Counting.
* **C68** Space-time statistics do not depend on the order of events. Permutation action on pair sets.
* **C69** Matrix shuffling is a relabelling. Matrix reindexing.
* **C70** The Mantel statistic is a correlation. Cauchy-Schwarz.
* **C71** The Jacquez statistic counts shared nearest neighbours. Counting.
* **C72** modified_knox subtracts the expected count. Algebra.
* **C73** Knox contingency tables are consistent. Algebra over counts.
* **C74** Knox counts neighbours of every event once per pair. Double counting.
* **C75** Knox permutation inference relabels time. Permutation of neighbour lists.
* **C76** Local Knox statistics decompose the global one. Double counting.
* **C77** Conditional permutation keeps the focal event's time fixed. Swap argument on permutations.
* **C78** The adjacency list of the local Knox test is symmetric with opposite orientations. List construction and orientation table.
* **C79** Hot spot clusters are the connected components of significant events. Expected FALSE: only the first neighbour per focal event is kept; witness; `_partial`.
* **C80** Local p-values are valid. Counting.
* **C81** The density grid covers the data. linspace arithmetic.
* **C82** The quadrat plot labels each cell with its own value. The drawing commands of the plot functions as data.
* **C83** j_test returns its result. Option-valued end of the function; FALSE for a support of one distance; `_partial` otherwise (J is never finite at the last distance).
* **C84** G from a distance matrix equals G from the coordinates. FALSE with a zero diagonal; `_partial` otherwise.
* **C85** f_test draws its locations in the study region. FALSE; witness; `_partial` for the bounding box.
* **C86** k_test normalises by the study region. FALSE; witness; `_partial` for the bounding box.
* **C87** j_test truncation cuts the simulated curves along with the support. FALSE; witness.
* **C88** The hot spot plot colours events by significance. The overwriting steps on the colour column as data.
* **C89** Data frame input of the Knox tests is equivalent to array input. Frames as data; equality with the constructor.
* **C90** SpaceTimeEvents reads the shape file and its database. FALSE: the database is looked up by name among libpysal's examples; witness; `_partial` otherwise.
* **C91** Rectangular quadrat counts add up in floating point arithmetic. Rounding to 53 binary digits, ties to even, as a function on the rationals (`Model/Float64.lean`), proved monotone, exact on floats and of relative error 2^-53; the float grid reduces to the exact one on the rounded offsets.
* **C92** The rectangle drawn for a cell contains the points counted in it, in floating point. FALSE; witness by evaluation in the kernel; `_partial` with an error bound.
* **C93** mean_center in floating point. Error bound of a left-to-right sum by induction; bounding box claim FALSE, witness.
* **C94** std_distance in floating point. Error bound through Cauchy-Schwarz; nan witness.
* **C95** Rotated rectangle angles in floating point. Python's float modulus; witness for exactly 90.
* **C96** Supports are sorted in floating point. Monotonicity of rounding and a bound on three rounded factors.
* **C97** p-values in floating point. Monotonicity of rounding.
* **C98** The squared time threshold of knox in floating point. Squares of neighbouring floats round to different floats.
* **C99** minimum_bounding_rectangle. Extreme coordinates of arrays and of GeoPandas geometries, missing geometries left out; it is the least rectangle.
* **C100** The ellipse polygon. shapely's unit circle buffer, scale and rotate modelled as functions; every corner is a point of the specified ellipse.
* **C101** The bounding circle polygon. Inscribed regular polygon; contained in the circle, contains the inner disc; witness that it misses an event.
* **C102** Sizes of simulated patterns in floating point. Two rounding errors bounded; witness with a point less.
* **C103** Quadrats of the simulations. Cell numbers of rectangle grids agree; witnesses for different rectangles and different numbers of hexagons.
* **C104** Level of the permutation tests. Count, over all rearrangements of the data and of the shuffles, those with a small p-value (`Spec/Level.lean`); regrouping by the set of R+1 arrangements shows the observed one is equally likely to have any rank. Witnesses for `knox` and for `mantel` with equal times.
* **C105** Level of the local Knox test. A shuffle that keeps the focal event in place, composed with the position of the focal event, is a uniform rearrangement; then the counting argument of C104 given that position.
* **C106** Level of the simulated quadrat test. Exchangeability of observed and simulated patterns as invariance of the joint law under renumbering (`Spec/Exchangeable`); rank argument (`Lemmas/MonteCarlo`); refuted for quadrats by width and height.
* **C107** Level of the simulated tests of the distance functions. The same rank argument for the folded p-value; the level is refuted and a bound of 2 alpha + 1/(R+1) proved.
* **C108** Law of `poisson`. Independent uniform draws (`Spec/Chance`); the law of rejection sampling by independence of the candidates and a geometric series (`Lemmas/RejectionLaw`); the affine image of the unit square.
* **C109** Law of the realisations of `PoissonPointProcess`. The rounds as a sampler that never uses a draw twice (`Lemmas/ChunkSampler`); the law of such a sampler (`Lemmas/SamplerLaw`).
* **C110** Law of the points of `runif_in_circle` and `_uniform_circle`. The same sampler with rounds of `2 n` candidates; translation invariance of the area.
* **C111** Lines of the local Knox plots. The table of `hotspots` (C79) turned into pairs of locations by label; every line is one of a hot spot event and an event close to it; that some close pairs get no line is shown on the chain of C79.
* **C112** Colours asked for. Layers selected by the value of the column `color`, with any palette; `explore` ignores the colour of events that are not significant (refuted).
* **C113** Centres of clusters. Both functions draw the centres from a generator seeded with an integer below 100000: the first point is a function of that integer. Refuted: it lies in a set of at most 100000 points of area zero.
* **C114** Representation of a region. One type for the three representations with the dispatch of `geometry.py`; invariance under rotation and reversal of the list of vertices for all lists; agreement on all boxes, on triangles for the centroid, and of `poisson` draw by draw. Refuted for the centroid of a trapezium and for points on the border.
* **C115** Drawn hexagons. Model of the vertices and the loop of `HexagonM.plot`; point in a hexagon as a point in a polygon; lattice argument for disjointness, nearest-centre argument for covering. Refuted for events on a horizontal line, where odd columns have no cells.
* **C116** Drawn rectangles. Model of the cell polygons of `RectangleM.plot`; the polygons are products of intervals of the two grids.
* **C117** Forms of events, centrography. The type of the argument as a sum type, `get_coordinates` on rows, the dispatch on the first argument. Refuted for `dtot` (dispatch on the location alone) and for weights of rows with none or several points.
* **C118** Forms of events, quadrats. `_as_points_array` and `_ensure_window` on arrays, GeoPandas rows and `PointPattern` objects.
* **C119** Reproducibility. A world of bit generators and legacy generators with positions; `_coerce_rng` and the passing on of the generator as a transformation of the world.
* **C120** Outline of the window. Trees of geometries; induction over nested collections.
* **C121** Realisations as point patterns. The constructor of `PointPattern` on the arrays of C36. Refuted for a realisation without points.
* **C122** Tests report their functions. `g_test`, `k_test`, `l_test` through `_ripley_test`, with the simulations arbitrary.
* **C123** Spec `UsesInOrder`: a returned result and the distance moved are the same on every stream that agrees on the stretch used, from any place. Proved by composition: reading one number or a block, sequencing, and induction over the fuel and the loops of every sampler (`Lemmas/Draws.lean`). The pre-drawn seeds of the cluster samplers are a block read first. For the distance tests, whose simulations each have a generator of their own: the result depends on finitely many numbers of each generator, and simulation `i` on no other generator.
* **C124** Spec `rescale`, `RescaledWindow`, `rescaleGrid`. The bounding box of rescaled points is the rescaled box; every comparison, floor and division in the cell index is then unchanged (`Lemmas/Motion.lean`); rejection sampling accepts the same draws. Order: counts are a fold of commuting increments.
* **C125** Spec `IsSimilarity`, `turn`, `mirror`. Centres are characterised as minimisers (C24, C25), so their images minimise too; the ellipse through the directional variance; the Manhattan median by sorting, with a 3-4-5 turn as a witness that it does not turn with the events.
* **C126** Spec `rescale`, `scaleSupport`, `scaleDist`, `RescaledHull`, `scaleResult`, `statFactor`. The nearest distances are unique although the index may break ties freely, so those of moved events are the scaled ones; supports, histograms and box areas scale; rejection sampling accepts the same draws; the comparison of simulated with observed values is unchanged (`Lemmas/DistanceMotion.lean`). Equality of whole runs, including exceptions.
* **C127** The nearest distance of an event is a function of the event and the multiset of events; pair distances of permuted events are permuted; histograms count. False of the tests of F and J (the i-th random location leaves out the i-th event): witness.
* **C128** For G and for K up to the factor by which the area of the bounding box changes: as C126 with factor 1. False of K: witness with two events and a 3-4-5 turn.
* **C129** The events after a map that multiplies all distances by a factor and an affine map of time (`Spec/SpacetimeMotion.lean`); every test is proved to give the same result on them, from correct answers of the indexes before and after. The correlation of `mantel` is invariant because powers of scaled distances are scaled powers.
* **C130** From C33 and the uniqueness of the smallest disc; the vertices of a hull are the exposed points of the events, so the hull of the moved events has the moved vertices. For every ring, also with vertices nearly on a line, the loop is proved to make the same choices after a rotation (`C130_turned`). A ring with a half-turn symmetry and two nearly flat corners, where two corners tie for the largest circle, refutes the rest (`C130_start_refuted`).
* **C131** From C01 the attributes are formulas of the locations; the shoelace sum is multiplied by the square of the factor under every similarity (a linear term cancels around the ring), minima and maxima commute with increasing maps. SciPy's hull and KD-tree are assumed to follow the motion.
* **C132** Each sampler is a chain of draws, tests and affine maps; a lemma for each of its loops (rejection, replications, children of a seed, iterations of strauss) says that moving the hull moves the outcome, by induction on the fuel. strauss depends on the unit: the numbers of initial and new points are the area times the number wanted, so it is refuted with a square of side 1 or 1/2 and proved for translations.
* **C133** The outcome of every loop is an ok or goes on; induction over replications and clusters, with the sizes of numpy.array_split positive iff there are at least as many points as seeds. For more seeds than points the first clusters have one point and need no draws, the next is empty.
* **C134** `Model/SpacetimeArgs.lean` adds the places where NumPy and the neighbour dictionaries notice the difference (fancy indexing, dictionary keys, broadcasting, reshaping). Case analysis; for mantel the vectors have n(n-1)/2 entries, which is injective from three events on. `knox` with surplus times and `jacquez` with surplus places return: refuted for every such call.
* **C135** On the model of C57–C62. The documented shapes are predicates on the array (`FitsG`, `FitsF`, `FitsK`); case analysis on the argument, and the number of pairs as a binomial coefficient. The tests by inversion of `_ripley_test`.
* **C136** On the model of C48–C54. Exact condition for rectangles from C50 and the empty dictionary of a grid without columns or rows. Hexagons: a side of zero divides by zero; a large negative side is accepted and gives one hexagon, so that part is refuted for every pattern.
* **C137** The form and the order of the events do not matter to hulls, rectangles, ellipses and circles. Model: the dispatch of `hull`, `minimum_bounding_rectangle`, `minimum_rotated_rectangle`, `ellipse` and `minimum_bounding_circle` on lists, arrays and GeoPandas objects, with the answers of SciPy and Shapely as arguments. Proof: two lists of corners of the same convex hull are rotations of each other. Expected FALSE for rows with several points, which `shapely.multipoints` refuses.
* **C138** The neighbours listed by `knn` and `knn_other` are events. Model: `PointPattern.knn`, `knnOther` and `nndFrom` over an index whose answers are specified as SciPy documents them, with infinite distances and the number `n` for missing neighbours. Proof: by the specification of the rows. Expected FALSE for `k ≥ n` (`knn`) and `k > n` (`knn_other`).
* **C139** Centrographic measures that have no meaning are reported as `nan`. Model: the functions of `centrography.py` once more, over numbers with `inf` and `nan` (`Model/CentroFloat.lean`). Proof: the numbers agree with those of the exact model where they exist; sums of values that are not finite are not finite. Expected FALSE for `weighted_mean_center` without events, which returns the origin.
* **C140** Functions that report the same quantity agree. Model: `PointPattern.findPairs`, `nndFrom`, `knoxGlobal`, `k`, `g`. Proof: all count the same list of pairs. Expected FALSE for `k`, which counts pairs strictly below the distance, where the others count those at it too.
* **C141** Events that all happen at the same time or place show no interaction. Model: the space-time tests. Proof: all rearrangements of the times give a rearrangement of the same events, which does not change the statistics. Expected FALSE for `knox`, whose count of larger statistics is replaced by its complement, for `mantel`, whose statistic is `nan`, and for `jacquez` with equal locations, where the index breaks ties.
* **C142** The moves of the Strauss sampler satisfy detailed balance. Model: `straussStep`; specification `straussDensity`. Proof: the acceptance ratios of a birth and of the death that undoes it are inverse to each other. Expected FALSE for hulls of area 2 and more, where points are born in groups.
* **C143** Without interaction the Strauss sampler ignores the radius. Model: `strauss`. Proof: the only use of the radius is as the exponent of `gamma`.
* **C144** Without interaction the Strauss sampler returns independent uniform points. Model: `strauss`. Proof: with `gamma = 1` the sampler is a program whose decisions do not depend on the places of the accepted candidates (`Blind`); by induction over such a program the returned candidates are independent with the distribution of an accepted one. Expected FALSE for initial patterns of one point, which are returned twice.
* **C145** The constructor (`construct`, `resolveNames`) is evaluated for each of the cases of the names; column names are assumed to be different from each other, as in the model of the data frame.
* **C146** Window and libpysal's area are modelled (`Window.mk`, `Window.asWindow`, `Window.area`). The area of the rings of boxes is computed, and compared with the Lebesgue measure of the set covered; `lambda_window` follows with C02. Only windows made of boxes are treated: for other rings the measure of the inside is not derived.
* **C147** A strong Markov property for the samplers: each reads the stream only between the place where it starts and the place where it ends, is measurable in the stream, and has one outcome. So the event that a call ends at a place with a result in a set is independent of what comes after, and the probabilities are summed over the places. The hull has to be a measurable set, and the library function that makes correlated normal pairs measurable.
* **C148** The loop over the clusters is a sequence of calls of the disc sampler, so the argument of C147 and the law of the disc sampler (C110) apply; the integers are read before. The generator made from an integer is an arbitrary function, so that the centres are given by the integer. One centre is left out: for it the squeezed array of centres has one dimension and the code fails unless the cluster has one point.
* **C149** The candidates are independent with the distribution of the linear map of the library applied to two standard normal numbers; by uniqueness of characteristic functions this is the normal distribution with the given covariance. Rejection conditions it on the hull (C110), and the strong Markov property (C147) makes the replications independent. Assumed of `multivariate_normal`: it maps two standard normal numbers by a factor of the correlation matrix.
* **C150** The simulated patterns are the points of poisson, which are independent and uniform on the window (C146, C147), and independent of the events. So the observed and the simulated patterns are exchangeable, and the rank argument of C144 applies. The counts of a pattern take countably many values, and each value is taken on a measurable set of patterns. A pattern with two points that share a coordinate has probability zero, so the rectangles are defined with probability one.
* **C151** Each simulation reads its own generator, so the simulated patterns are independent of each other and of the events, with the law of the events (C146). The curves at a distance are measurable functions of the patterns: a nearest distance is a minimum and the counts are finite sums of indicators. So the observed and simulated values are exchangeable and the rank argument of C144 applies to each tail. The hull and the distances are given, since otherwise they depend on the observed events.
* **C152** Comparisons with nan are false, so the count of simulated values that are at least as large is zero and the p-value is 1 / (simulations + 1) whatever the simulations are. This refutes the property for every test whose curve can be nan, and for g_test whenever no nearest neighbour distance is within the support. For k_test and l_test the curve is shown to be a number at every distance.
* **C153** C104 and C105 bound the probability given the locations and the set of times. Since the distribution of the events is invariant under rearrangements of the times, the probability over random events is the average over all rearrangements, and the average of the bounded conditional probabilities is bounded. The sets of events with a small p-value are measurable since they only depend on which events are close; for mantel since the correlation is a measurable function of the events. A lemma derives the invariance from independent times, and the example builds such events.
* **C154** The methods `plot` of the grids and of `QStatistic` with the argument `show`, as a list of cells with what is written into them. The cells of a `QStatistic` are drawn in the order of its dictionary of counts; with C48, C54 and C82 the drawn contributions are those of the cells and their sum is the statistic.
* **C155** False for one event: `poisson` squeezes a pattern of one point to an array of shape `(2,)`, which the functions do not accept; k and l return for one event, the tests never do. For two or more events the simulated patterns have two axes and the functions return for each, so the tests return once every generator has given enough points in the hull.
* **C156** The rows are modelled with their pandas labels. True for lists and arrays. False for a Series, which pandas aligns by label: unique, superimpose and explode keep the labels of the rows they keep, so labels and positions differ. A theorem says what each event gets, and the claim is refuted for every pattern whose labels are not 0, 1, 2, …
* **C157** `Model/FloatCurves.lean` repeats the last steps of `f`, `g`, `j` and `k` with a rounding after every operation on floats, `Spec/FloatCurves.lean` says when a computed value agrees with the exact one. Shares are quotients of integers with a bounded denominator, so different shares are further apart than the rounding; proved from the bounds on `fl`.
* **C158** `Model/FloatChi2.lean`: the statistic with every operation rounded, the order of the additions of `numpy.sum` left open (`Spec/FloatChi2.lean`). The rounding error is bounded and compared with the gap between different exact values, so strict orders are kept. Ties are not: eight events in three cells and their mirror image refute the claim.
* **C159** `Model/FloatKnox.lean`: the sums are integers and exact, the quotient, the difference and the half are rounded. Different exact values are at least `1 / (2 (n - 1))` apart, more than twice the rounding error, so strict orders are kept. Ties are not: seven events and one permutation refute the claim.
* **C160** `l_test` is `k_test` followed by the transformation of the curves, shown step by step for the observed curve and every simulation; the p-values only compare values at the same distance, and the transformation is strictly increasing there. `Spec/LCurve.lean` says what the curve of L is.
* **C161** Each cluster of `cluster_normal` is drawn by a new generator made from an integer below 100000. `C161_cluster_points_partial` gives the points of every cluster from its centre and this integer. `C161_copies_refuted`: two clusters with the same integer are copies of each other while no candidate leaves the hull, so the displacements are not independent. `C161_birthday` gives the probability that all integers differ.
* **C162** `hypergeom.cdf` is an argument with the specification `IsHypergeomCdf`. `C162_analytic_exact` counts the permutations by where they send the time neighbours of all events; `C162_analytic_level` follows.
* **C163** The simulated p-value keeps the time of the event and rearranges the others. `C163_simulated_mean` gives its mean over all permutations. `C163_conditional_partial`: it belongs to the analytical p-value if all events have equally many time neighbours. `C163_conditional_refuted`: in general the two test different hypotheses (1/2 and 2/3 for four events).
* **C164** `C164_expected_is_mean` and `C164_modified_knox_centred`, by counting the permutations that send a pair of events to a given pair.
* **C165** `poisson.cdf` is an argument with the specification `IsPoissonCdf`, over ℝ and Mathlib's Poisson measure. `C165_poisson_partial`: the code computes the probability of more pairs than observed. `C165_poisson_refuted`: without a pair close in space, or in time, the p-value is 0 although the probability of at least as many pairs is 1.
* **C166** Over ℝ and Mathlib's measures, with `CompletelyRandom`. `C166_mean_partial`: the mean of `k` is at most (n − 1)/n · πd², by integrating over the second event of each pair. `C166_mean_refuted`: it is therefore smaller than πd² for every d > 0, and by Jensen's inequality the mean of the linearized `l` is negative. There is no correction for events beyond the edge, and pairs are divided by n² instead of n(n − 1).
* **C167** `C167_mantel_mean` and `C167_jacquez_mean`, with the count of permutations of C164 (`sum_rearranged_products`). For `mantel` whenever it reports a number, for `jacquez` if no event has two others at the same distance in time (with ties the lists of neighbours depend on the library).
* **C168** `C168_mean_partial` averages `chisquare` over all assignments of n events to m cells given beforehand: the mean is m − 1. `C168_mean_refuted`: the cells of QStatistic divide the bounding box of the events themselves; with two columns and one row the statistic of n events is at most (n − 2)²/n, always 0 for two events, always 1/3 for three, with one degree of freedom.
* **C169** `Verif.Model.Facade` models `summary` as the list of printed values, kept if a later one raises, and `head`, `tail` as pandas slices of the present frame. `C169_head_tail` and `C169_head_marks` hold for all histories; `C169_summary_partial` if `lambda_window` was not read before the last window assignment. `C169_summary_refuted`: a second `summary` after a change of window prints the new area beside the old intensity, for every pattern with events and any two windows of different area.
* **C170** `Verif.Props.MedianUnique`, about the model of `euclidean_median` with the optimiser as a parameter. `C170_median_partial`: a median exists, lies in every half plane that contains the events, and is unique if three events are not on a line. `C170_optimisers_agree`: then any two optimisers that stop at a local minimum give the same result, in any order of the events. `C170_stopping`: with a gradient not longer than ε the excess over any location is at most ε times the distance to it. `C170_start`: the mean centre is within a factor of two of the best. `C170_unique_refuted`: for two events every location between them is a median and optimisers may differ.
* **C171** `C171_mean` computes the mean of the modelled `chisquare` over independent events with arbitrary cell probabilities p: (m − 1) + (n − 1)(m Σp² − 1). `C171_centred_partial`: it is at least m − 1, and equal to it exactly if all cells have probability 1/m. `C171_centred_refuted`: otherwise it exceeds the degrees of freedom by any bound for sufficiently many events. (The notes of the class warn of irregular windows; this is the exact condition.)
* **C172** `C172_spread` ties `ellipse` to `std_distance`; `C172_circle_share`: an event within one standard distance, at most n/r² beyond r of them; `C172_ellipse_partial`: at most 2n/k² events outside, so at least two inside for CrimeStat. `C172_ellipse_refuted`: Yuill's ellipse without corrections round the corners of a square holds none.
* **C173** `C173_some_event_partial`: the probability of reporting some event is at most n·crit (union bound over C162), so crit/n controls it. `C173_some_event_refuted`: two separate pairs of neighbours, where it is 1/3 at crit 1/6.
* **C174** `Verif/Model/MedianWarning.lean` adds the warning to the call. `C174_minimisers` describes all medians by counting the events on the four sides; `C174_silence`: no warning, one median; `C174_warning_partial`: ties exactly when an axis-parallel line through no event halves the events, and then the call warns. `C174_warning_refuted`: four events, two of them at the same place, warned of although the median is unique.
* **C175** `C175_between_partial` from `C59_g_partial` and `C61_k`, at every distance but the last. `C175_between_refuted`: at the last distance of the support, where G counts ties and K does not, two events have G = 1 and K = 0.
* **C176** `C176_band`: union bound over `C151_high` and `C151_low` at the level 1/(R+1).
* **C177** From the smallest-box, smallest-disc and pair-count theorems of C99, C33 and C74, the convexity-free bound of C30, and the minimality of the mean centre (C24): `C177_rectangle`, `C177_circle_partial`, `C177_knox`, `C177_median`, `C177_spread_partial` (n·std² does not fall). `C177_spread_refuted`: an event added at the mean centre makes `std_distance` smaller.
* **C178** K and L: from the pointwise formulas of C61 and C62 (`C178_k`, `C178_l`). G: `C178_g_partial`, the value times the number of events within the support is the same, so supports that cover all nearest neighbours agree; `C178_g_refuted`: a shorter support gives another value for G and for F.
* **C179** `C179_plotted_partial`: invariant over histories in which no mark takes the name of a coordinate column (the columns keep their values, the two names are exchanged by every flip). `C179_plotted_refuted`: after one flip, or after a mark named like a coordinate, the events are drawn outside the bounding box and the window.
* **C180** `C180_groups`: decomposition of the sum of squares about the mean centre. `C180_superimposed_partial`: the points of the superimposed pattern are those of the parts, one after the other, when no row is twice. `C180_superimposed_refuted`: a shared event is counted once.
* **C181** `C181_counts`: the cells of the fine grid, in units of their own width, partition a coarse cell along each axis (floor, with the closed last cell apart), and membership is a product over the axes. `C181_statistic`: Cauchy–Schwarz on each coarse cell, with the closed form of the statistic from C54.
* **C182** `C182_knn_distances`: the distances are a prefix of the sorted distances, ties or not. `C182_knn_partial`: without ties the ids are determined by the distances. `C182_jacquez_partial`: the characterisation of C71 is monotone in k. `C182_jacquez_bounds`: inclusion and exclusion in each row. `C182_knn_refuted`, `C182_jacquez_refuted`: correct answers with ties that contradict each other.
* **C183** `C183_grouping`: dropping duplicates of an appended table in one or two steps; the cases of different columns give the same error. `C183_parts`: induction over the parts of C09, with the members of the superimposed table as invariant.
* **C184** `C184_mean_center`, `C184_weighted_mean_center`, `C184_euclidean_median`, `C184_manhattan_median`: a location outside the hull is separated from the events by a line; averages, a step along the normal, and counting of the events on both sides of the medians give the contradictions. `C184_medians_near`: triangle inequality and Cauchy–Schwarz. `C184_circle`: the mean centre minimises the sum of squares.
* **C185** The ring of the hull is described by what SciPy promises: vertices among the events, every three of them in list order making a left turn. Rotate the ring to its highest vertex. Four vertices in convex position cannot alternate high, low, high, low, so the heights go down and then up; the shoelace sum of such a path is bounded by the width times the height of the box. Positivity by the fan of triangles around the first vertex.
* **C186** The shoelace sum of the ring is compared with Lebesgue measure: the area of a triangle by the linear map from the unit triangle; the hull of the ring is the first triangle of the fan around its first vertex and the hull of the rest, which meet on a line; induction over the vertices. Monotonicity and the disc follow from the measure.
* **C187** A point on the left of all edges of the ring is found in a triangle of the fan by induction over the vertices; conversely every edge has the whole ring on its left. No point is on the right of all edges, since the sum over the edges is twice the area. The strict version is the interior, as a border point can leave across its edge. Areas from C186; the border of a convex set has no area. The law of poisson is C108 for this region. Rings listed clockwise are C114_direction. Polygons that are not convex or have holes are not covered.
* **C188** As C146 with convex polygons in place of boxes: the sum libpysal computes for a closed ring is the shoelace sum up to a telescoping term, and changes sign with the direction; C186 gives the area of a polygon; polygons with disjoint interiors are disjoint up to their borders, which have no area. The second part compares the hull of the events with the window as sets. Windows that are not convex are not covered.
* **C189** The moments of the ring telescope to those of a fan of triangles with positive areas, so the centroid is a weighted mean of the centroids of the triangles, each inside its triangle; the interior of the hull is convex. The mean of the corners of a ConvexHull is in the hull by induction. Polygons that are not convex are not covered (their centroid can be outside).
* **C190** The affine map that turns the corners of a triangle around keeps area, so the integral of a coordinate over a triangle is its area times the mean of the corners; the hull is a fan of triangles that meet in segments without area, and the moments of the ring are those of the fan (C189). Boxes by C114. Refuted for a ConvexHull, whose centroid is the mean of its corners: a trapezium. Polygons that are not convex are not covered.
* **C191** Every point drawn has the uniform law on the region (C108, C187), so its expectation is the integral of C190; the sample mean is a finite sum of integrable functions. The points as functions of the draws are measurable by C147. C191_completely_random says that the simulated points are completely random events, so that C150, C151, C166, C168 and C192 apply to them. Arithmetic is exact.
* **C192** The events are random variables with the uniform law; expectation and variance of the sums of their coordinates from independence (variance of a sum). Refuted for std_distance, which divides by n and is smaller on average for every region and n: the exact factor is 1 - 1/n. Arithmetic is exact.
* **C193** Each sampler accepts only points of the region (C40, C43-C46); the points of these regions are a convex set (C187), which therefore holds the hull of the points; Lebesgue measure is monotone, and the areas of the code are that measure (C186, C187). Arithmetic is exact; the answers of SciPy's hull are an argument that must be the hull of the events.
* **C194** The points are completely random (C191) and the mean squared distance of mean_center is the spread of the region divided by n (C192); the spread of a set in a box is at most a quarter of the squared diagonal (variance of a bounded variable); Markov's inequality. Arithmetic is exact.
* **C195** The points are completely random (C191); the event that exactly a given set of points lies in the part is a product by independence, and the event of a count is the disjoint union over the sets of that size. The areas of the code are Lebesgue measure (C187). Arithmetic is exact.
* **C196** The case of no success of the binomial law of C195, for the open disc round the location; its area is pi * d**2 (Lebesgue measure), and what it has in common with the region is at most that. Arithmetic is exact.
* **C197** By the joint law of the points (independent, uniform on the region; C191): the law of the others given one point is a product, and each factor is at least 1 - pi * d**2 / area(region) by the area of a disc. Only the lower bound is stated, since the disc may leave the region. Arithmetic is exact.

## Trusted base

What has to be believed for the theorems to say something about pointpats:

* **Lean's kernel** (4.33.0) and the three axioms `propext`, `Classical.choice` and `Quot.sound`. Mathlib's definitions
  (lists, real numbers, measures, trigonometric functions) mean what their names say. There are no other axioms, no
  `sorry`, no `native_decide` and no `bv_decide`; concrete examples are evaluated by the kernel (`decide +kernel`, `norm_num`).
* **The reading of the Python code.** The model was written by hand from the source. Every definition in `lean/Verif/Model/`
  cites the lines it models, and says where it simplifies. Nothing was run: there is no test that compares the model with the
  program.
* **The specifications** in `lean/Verif/Spec/` and the statements of the theorems express the English properties.
* **Models of libraries.** What NumPy, SciPy, pandas, GeoPandas, shapely, scikit-learn, libpysal and joblib do is either a
  parameter constrained by a hypothesis, a relation that admits every correct answer, or a function with the documented formula:
  * spatial indexes (KDTree, BallTree, `libpysal` distance bands): relations that admit every order among ties;
    `lib.Correct` and the hypotheses `…Answers` say what a correct index returns;
  * `scipy.spatial.ConvexHull`: the list of hull vertices as a parameter with the hypothesis `IsHullOf`;
  * `scipy.optimize.minimize`, `scipy.stats.poisson.cdf`, `hypergeom`, `connected_components`, `interp1d`, `allclose`:
    parameters, constrained where a theorem needs it;
  * `numpy.linspace`, `histogram`, `cumsum`, `median`, `argsort`, `unique`, `squeeze`, broadcasting: functions;
  * `shapely`: polygons are lists of vertices; `area`, `centroid`, `contains`, `buffer`, `scale`, `rotate`, `envelope` are formulas;
  * pandas: a table of numbers with column names; GeoPandas: a list of rows with their geometries;
  * joblib: any assignment of simulations to workers in any order.
* **Numbers.** Exact arithmetic in an ordered field or in the real numbers, with `inf` and `nan` as separate values (`XF`) where
  the code can produce them. C91 to C98 and C102 are about binary floating point instead (`Model/Float64.lean`): rounding to 53
  bits, to nearest, ties to even, with unbounded exponents. Whatever else is proved says nothing about rounding errors.
* **Randomness.** A generator is an arbitrary sequence of draws with a position; theorems hold for every sequence. Laws (C104 to C110,
  C113) assume that the draws are independent and uniform; how NumPy's bit generators produce them is not modelled.
* **Loops without a bound** (rejection sampling, the bounding circle) have fuel; `Returns` says that the result is reached with
  some amount of it. Where a theorem is only about runs that end, its statement has `Returns` as a hypothesis.

### Axioms of each theorem

From `#print axioms` for the 570 theorems of `MANIFEST.json`. No theorem depends on anything else; none on `sorryAx`, `Lean.ofReduceBool` or `Lean.trustCompiler`.

* `propext` (3 theorems): `C17_to_ccf_empty`, `C19_bbox_of_corners`, `C20_contains`.
* `Quot.sound`, `propext` (58 theorems): `C01_attributes_history_independent`, `C02_lambda_window_frozen`, `C02_lambda_window_partial`, `C12_own_neighbour_refuted`, `C17_to_ccf`, `C18_filter_contained`, `C19_bbox_contains_points`, `C19_bbox_smallest`, `C19_same_numbers`, `C20_area`, `C22_build_best_tree`, `C36_poisson_process`, `C36_poisson_process_box`, `C37_runif_in_circle`, `C38_cluster_round_partial`, `C42_single_refuted`, `C43_normal_argument`, `C54_chi_square_perm`, `C55_pvalue_perm`, `C64_order`, `C66_negative_tau_refuted`, `C66_times_rearranged_partial`, `C68_modified_knox_order`, `C69_inverse_restores`, `C69_shuffle_matrix_relabels`, `C69_shuffles_times`, `C81_fft_tuple_refuted`, `C81_resolution`, `C82_hexagon_plot`, `C88_other_inference`, `C90_events_partial`, `C90_sizes`, `C99_minimum_bounding_rectangle`, `C117_centres`, `C119_fresh`, `C119_random_state`, `C119_refused`, `C119_seed`, `C119_seed_sequence`, `C120_outline`, `C123_quadrat_test`, `C124_order_hexagons`, `C124_order_rectangles`, `C124_order_test`, `C132_poisson_process`, `C134_knox_refuted`, `C137_rectangle`, `C138_missing_other_refuted`, `C138_neighbours_partial`, `C139_manhattan_median`, `C143_gamma_one`, `C154_grids`, `C156_arrays`, `C156_rows`, `C156_series_partial`, `C169_summary_partial`, `C177_rectangle`, `C182_knn_refuted`.
* `Classical.choice`, `Quot.sound`, `propext` (509 theorems): `C02_lambda_window_refuted`, `C03_default_window`, `C04_constructor_arguments_partial`, `C04_constructor_arguments_refuted`, `C05_add_marks_partial`, `C05_add_marks_refuted`, `C06_unique`, `C07_unique_window_refuted`, `C07_window_handed_on_partial`, `C08_superimpose`, `C09_explode`, `C10_flip_coordinates`, `C11_knn`, `C12_not_own_neighbour_partial`, `C13_knn_other`, `C13_nnd`, `C13_nnd_summaries`, `C14_find_pairs`, `C15_hull_area_invariance`, `C15_hull_area_nonneg`, `C15_hull_area_rectangle`, `C16_contains_partial`, `C16_contains_refuted`, `C17_poly_from_bbox`, `C20_area_geometry`, `C21_k_neighbors`, `C23_prepare_hull`, `C24_mean_center`, `C25_integer_weights`, `C25_weighted_mean_center`, `C26_manhattan_median`, `C27_std_distance`, `C28_C29_ellipse`, `C28_C29_ellipse`, `C29_ellipse_errors`, `C30_collinear`, `C30_dtot`, `C30_euclidean_median`, `C30_optimiser_arguments`, `C31_circumcircle`, `C32_lists_stop`, `C32_numba_stops`, `C33_contains_refuted`, `C33_smallest_circle_partial`, `C34_choices`, `C34_same_circle`, `C34_same_if_unique`, `C35_all_listings`, `C35_angle`, `C37_runif_in_circle_ends`, `C38_cluster_process_refuted`, `C38_conditioned_refuted`, `C39_box`, `C39_flat_box`, `C39_size_and_intensity`, `C39_zero_area`, `C40_poisson`, `C40_poisson_box`, `C40_poisson_ends`, `C41_replications`, `C41_successive`, `C42_shape_partial`, `C42_shape_refuted`, `C43_correlation_refuted`, `C43_covariance_partial`, `C43_covariance_refuted`, `C43_normal_points`, `C44_cluster_poisson_partial`, `C44_cluster_poisson_refuted`, `C44_one_seed_refuted`, `C45_cluster_normal_partial`, `C45_cluster_normal_points`, `C45_replications_refuted`, `C46_strauss_ends`, `C46_strauss_ends_surely`, `C46_strauss_errors`, `C46_strauss_partial`, `C46_strauss_refuted`, `C46_strauss_small_hull`, `C46_strauss_succeeds`, `C47_hard_core_partial`, `C47_hard_core_refuted`, `C48_rectangle_counts_conserve`, `C48_rectangle_counts_robust_to_rounding`, `C49_rectangle_cell_counts`, `C50_counted_partial`, `C50_degenerate_refuted`, `C51_C52_exact_partial`, `C51_C52_exact_partial`, `C51_C52_hexagon_counts_partial`, `C51_C52_hexagon_counts_partial`, `C51_hexagon_counts_refuted`, `C52_hexagon_assignment_refuted`, `C53_hexagon_num_partial`, `C53_hexagon_num_refuted`, `C54_chi_square`, `C55_one_realization_refuted`, `C55_pvalue_antitone`, `C55_pvalue_partial`, `C56_edge_correction`, `C56_errors`, `C56_other_supports`, `C56_support`, `C57_g`, `C57_g_given`, `C57_g_returns`, `C58_f`, `C58_f_given`, `C59_g_partial`, `C59_g_refuted`, `C60_j`, `C60_j_truncate`, `C61_k`, `C61_k_given`, `C61_k_order`, `C61_k_returns`, `C61_k_shape`, `C62_l`, `C63_first_pvalue_refuted`, `C63_pvalue_partial`, `C64_schedule`, `C65_f_test_partial`, `C65_f_test_refuted`, `C66_inputs_modified_refuted`, `C66_knox_counts_pairs_partial`, `C66_no_close_pair_refuted`, `C67_jacquez_pvalue`, `C67_knox_all_larger_refuted`, `C67_knox_order_refuted`, `C67_knox_pvalue_partial`, `C67_mantel_pvalue`, `C67_modified_knox_pvalue`, `C68_knox_order`, `C68_mantel_order`, `C69_inverse_exists`, `C70_constant`, `C70_correlation_affine`, `C70_defined`, `C70_mantel_is_correlation`, `C70_mantel_symmetric`, `C70_space_units`, `C70_time_units`, `C70_undefined`, `C71_jacquez_counts`, `C71_jacquez_nearest`, `C72_modified_knox_formula`, `C73_expected_table`, `C73_observed_table`, `C74_agrees_with_knox`, `C74_counts_grow`, `C74_knox_counts_pairs`, `C75_permutations_relabel_time`, `C76_global_test`, `C76_local_counts`, `C77_focal_event_kept`, `C78_adjacency_list`, `C79_hotspots_partial`, `C79_linked_events_split_refuted`, `C80_analytical_pvalues`, `C80_simulated_pvalues`, `C81_density_grid`, `C81_fft_grid_partial`, `C81_frames`, `C81_grid_covers`, `C82_plot_contributions`, `C82_rectangle_plot`, `C83_j_test_cut`, `C83_j_test_partial`, `C83_j_test_refuted`, `C84_matrix_partial`, `C84_matrix_refuted`, `C85_region_partial`, `C85_region_refuted`, `C86_k_test_partial`, `C86_k_test_refuted`, `C87_simulations_partial`, `C87_simulations_refuted`, `C88_plot_colours`, `C89_knox_from_dataframe`, `C89_local_from_dataframe`, `C89_refused_frames`, `C90_database_refuted`, `C91_float_counts`, `C92_float_drawn_cells_partial`, `C92_float_drawn_cells_refuted`, `C93_float_mean_center_partial`, `C93_float_mean_center_refuted`, `C94_float_std_distance_partial`, `C94_float_std_distance_refuted`, `C95_float_angle_partial`, `C95_float_angle_refuted`, `C96_float_support`, `C97_float_pvalues`, `C98_float_time_threshold`, `C100_ellipse_polygon`, `C101_circle_polygon_partial`, `C101_circle_polygon_refuted`, `C102_float_simulated_size_partial`, `C102_float_simulated_size_refuted`, `C103_own_quadrats_partial`, `C103_same_cells_refuted`, `C103_same_number_partial`, `C103_same_quadrats_refuted`, `C104_jacquez_level`, `C104_knox_class_level`, `C104_knox_level_partial`, `C104_knox_level_refuted`, `C104_mantel_level_partial`, `C104_mantel_level_refuted`, `C104_modified_knox_level`, `C105_expected_number`, `C105_local_level`, `C106_quadrat_level_partial`, `C106_width_refuted`, `C107_level_refuted`, `C107_ripley_level_partial`, `C108_poisson_returns`, `C108_poisson_uniform`, `C109_process_ends`, `C109_process_uniform`, `C110_circle_uniform`, `C110_runif_in_circle_returns`, `C110_runif_in_circle_uniform`, `C111_lines_partial`, `C111_missing_line_refuted`, `C112_explore_neighbors`, `C112_explore_palette_partial`, `C112_explore_palette_refuted`, `C112_plot_palette`, `C113_cluster_normal_first_point`, `C113_cluster_normal_refuted`, `C113_cluster_poisson_first_points`, `C113_cluster_poisson_refuted`, `C113_shared_centres_refuted`, `C114_border_refuted`, `C114_centroid_refuted`, `C114_direction`, `C114_first_vertex`, `C114_rectangle_partial`, `C114_simulation_partial`, `C114_triangle`, `C115_gap_refuted`, `C115_hexagons_partial`, `C116_rectangles`, `C117_distances`, `C117_dtot_partial`, `C117_dtot_refuted`, `C117_weights_partial`, `C117_weights_refuted`, `C118_inputs`, `C118_refusals`, `C119_generator`, `C121_empty_refuted`, `C121_patterns_partial`, `C122_same_function`, `C122_shape`, `C123_distance_functions`, `C123_distance_tests`, `C123_own_generator`, `C123_process`, `C123_random`, `C124_hexagons`, `C124_quadrat_test`, `C124_rectangles`, `C125_dtot`, `C125_ellipse_mirrored`, `C125_ellipse_turns`, `C125_euclidean_median`, `C125_manhattan_median`, `C125_manhattan_median_axes`, `C125_mean_center`, `C125_order`, `C125_order_ellipse`, `C125_std_distance`, `C125_weighted_mean_center`, `C126_f_j`, `C126_g`, `C126_k_l`, `C126_tests`, `C127_f_test_refuted`, `C127_functions`, `C127_tests_partial`, `C128_turned_partial`, `C128_turned_refuted`, `C129_jacquez`, `C129_knox`, `C129_knox_class`, `C129_knox_local`, `C129_mantel`, `C129_mantel_default_constants`, `C129_mantel_plain`, `C129_modified_knox`, `C130_order_partial`, `C130_rectangle_mirrored`, `C130_rectangle_turned`, `C130_similarity_partial`, `C130_start_refuted`, `C130_turned`, `C131_box_not_turned`, `C131_default_window`, `C131_order`, `C131_turned`, `C131_units`, `C132_cluster_normal`, `C132_cluster_poisson`, `C132_normal`, `C132_poisson`, `C132_runif_in_circle`, `C132_strauss_partial`, `C132_strauss_refuted`, `C133_cluster_normal_ok`, `C133_cluster_normal_one_seed`, `C133_cluster_normal_too_many`, `C133_cluster_poisson_arguments`, `C133_cluster_poisson_ok`, `C133_cluster_poisson_too_many`, `C134_jacquez_refuted`, `C134_labels`, `C134_mantel`, `C134_not_arrays`, `C134_refused_partial`, `C134_same_number`, `C135_f`, `C135_g`, `C135_j`, `C135_k_l`, `C135_tests`, `C136_hexagons_partial`, `C136_negative_side_refuted`, `C136_quadrat_test`, `C136_rectangles`, `C137_circle`, `C137_ellipse`, `C137_ellipse_polygon`, `C137_hull_partial`, `C137_order`, `C137_rotated_rectangle_partial`, `C137_several_points_refuted`, `C138_missing_neighbours_refuted`, `C139_ellipse`, `C139_ellipse_empty`, `C139_ellipse_one`, `C139_mean_center`, `C139_std_distance`, `C139_weighted_partial`, `C139_weighted_refuted`, `C140_k_partial`, `C140_k_refuted`, `C140_knox_pairs`, `C140_nnd_g`, `C141_jacquez_partial`, `C141_jacquez_refuted`, `C141_knox_class`, `C141_knox_local`, `C141_knox_refuted`, `C141_mantel_refuted`, `C141_modified_knox`, `C142_balance_partial`, `C142_one_point`, `C142_two_points_refuted`, `C144_box`, `C144_hull`, `C144_refuted`, `C144_uniform_partial`, `C145_names_given`, `C145_no_names`, `C146_holes`, `C147_independent`, `C147_one_outcome`, `C148_cluster_poisson`, `C148_seeds`, `C149_normal_points`, `C149_normal_returns`, `C150_quadrat_csr_level`, `C150_quadrat_csr_reports`, `C151_high`, `C151_low`, `C151_pvalue`, `C151_returns`, `C152_g_test_refuted`, `C152_nan_refuted`, `C152_numbers_partial`, `C153_jacquez`, `C153_knox`, `C153_knox_local`, `C153_mantel`, `C153_modified_knox`, `C154_hexagons`, `C154_rectangles`, `C155_returns_partial`, `C155_single_raises`, `C155_single_refuted`, `C156_series_aligned`, `C156_series_refuted`, `C157_compare`, `C157_g`, `C157_j`, `C157_k`, `C157_shares`, `C158_kind`, `C158_order_partial`, `C158_pvalue_partial`, `C158_ties_refuted`, `C159_order_partial`, `C159_pvalue_partial`, `C159_ties_refuted`, `C160_k_l_tests`, `C161_birthday`, `C161_cluster_points_partial`, `C161_copies_refuted`, `C162_analytic_exact`, `C162_analytic_level`, `C163_conditional_partial`, `C163_conditional_refuted`, `C163_simulated_mean`, `C164_expected_is_mean`, `C164_modified_knox_centred`, `C165_poisson_partial`, `C165_poisson_refuted`, `C166_mean_partial`, `C166_mean_refuted`, `C167_jacquez_mean`, `C167_mantel_mean`, `C168_mean_partial`, `C168_mean_refuted`, `C169_head_marks`, `C169_head_tail`, `C169_summary_refuted`, `C170_median_partial`, `C170_optimisers_agree`, `C170_start`, `C170_stopping`, `C170_unique_refuted`, `C171_centred_partial`, `C171_centred_refuted`, `C171_mean`, `C172_circle_share`, `C172_ellipse_partial`, `C172_ellipse_refuted`, `C172_spread`, `C173_some_event_partial`, `C173_some_event_refuted`, `C174_minimisers`, `C174_silence`, `C174_warning_partial`, `C174_warning_refuted`, `C175_between_partial`, `C175_between_refuted`, `C176_band`, `C177_circle_partial`, `C177_knox`, `C177_median`, `C177_spread_partial`, `C177_spread_refuted`, `C178_g_partial`, `C178_g_refuted`, `C178_k`, `C178_l`, `C179_plotted_partial`, `C179_plotted_refuted`, `C180_groups`, `C180_superimposed_partial`, `C180_superimposed_refuted`, `C181_counts`, `C181_statistic`, `C182_jacquez_bounds`, `C182_jacquez_partial`, `C182_jacquez_refuted`, `C182_knn_distances`, `C182_knn_partial`, `C183_grouping`, `C183_parts`, `C184_circle`, `C184_euclidean_median`, `C184_manhattan_median`, `C184_mean_center`, `C184_medians_near`, `C184_weighted_mean_center`, `C185_areas`, `C185_default_window`, `C185_geometry`, `C185_intensities`, `C186_disc`, `C186_geometry`, `C186_hull_area`, `C186_more_events`, `C187_box`, `C187_hull`, `C187_poisson`, `C187_polygon`, `C188_convex_window`, `C188_window`, `C189_centroid`, `C189_clockwise`, `C190_hull_refuted`, `C190_mean_partial`, `C191_completely_random`, `C191_expectation`, `C192_ellipse`, `C192_mean_center`, `C192_std_distance_partial`, `C192_std_distance_refuted`, `C193_pattern`, `C193_samplers`, `C194_consistent`, `C194_limit`, `C195_binomial`, `C196_empty_disc`, `C197_isolated`.

### What is modelled

Every function with code in `pointpats/`, the share of its lines of code (without docstring, comments and blank lines) that a definition of the model cites, and those definitions. In files with `singledispatch`, `_` is an implementation registered for a type.

| function | lines | modelled | definitions |
|---|---|---|---|
| centrography.py `minimum_bounding_rectangle` | 48-102 | 3/5 | `minimumBoundingRectangleOf` |
| centrography.py `_` | 106-115 | 9/9 | `minimumBoundingRectangle`, `minimumBoundingRectangleOf` |
| centrography.py `_` | 119-120 | 1/1 | `minimumBoundingRectangleGeo`, `minimumBoundingRectangleOf` |
| centrography.py `minimum_rotated_rectangle` | 124-196 | 3/5 | `rotatedRectangleOf` |
| centrography.py `_get_mrr_angle` | 199-209 | 10/10 | `getMrrAngle`, `mrrAngle` |
| centrography.py `_` | 213-221 | 6/6 | `rotatedRectangle`, `rotatedRectangleOf` |
| centrography.py `_` | 225-233 | 5/5 | `rotatedRectangle`, `rotatedRectangleOf` |
| centrography.py `hull` | 237-298 | 3/5 | `hullOf` |
| centrography.py `_` | 302-304 | 2/2 | `hullOf` |
| centrography.py `_` | 308-309 | 1/1 | `hullOf` |
| centrography.py `mean_center` | 313-366 | 5/5 | `PointsArg.coordinates`, `meanCenterOf` |
| centrography.py `_` | 370-371 | 1/1 | `meanCenter`, `meanCenterOf` |
| centrography.py `_` | 375-377 | 2/2 | `PointsArg.coordinates`, `meanCenterOf` |
| centrography.py `weighted_mean_center` | 381-437 | 5/5 | `PointsArg.coordinates`, `weightedMeanCenterOf` |
| centrography.py `_` | 441-445 | 4/4 | `weightedMeanCenter`, `weightedMeanCenterOf`, `weightedMeanCenterX` |
| centrography.py `_` | 449-451 | 2/2 | `PointsArg.coordinates`, `weightedMeanCenterOf` |
| centrography.py `manhattan_median` | 455-507 | 5/5 | `PointsArg.coordinates`, `manhattanMedianOf` |
| centrography.py `_` | 511-516 | 5/5 | `manhattanMedian`, `manhattanMedianCall`, `manhattanMedianOf`, `manhattanMedianX` |
| centrography.py `_` | 520-522 | 2/2 | `PointsArg.coordinates`, `manhattanMedianOf` |
| centrography.py `std_distance` | 526-578 | 5/5 | `PointsArg.coordinates`, `stdDistanceOf` |
| centrography.py `_` | 582-585 | 3/3 | `fvar`, `stdDistance`, `stdDistanceOf`, `stdDistanceX`, `stdRadicand` |
| centrography.py `_` | 589-591 | 2/2 | `PointsArg.coordinates`, `stdDistanceOf` |
| centrography.py `ellipse` | 595-668 | 3/5 | `ellipseOf` |
| centrography.py `_` | 672-742 | 52/52 | `EllipseMethod`, `correctX`, `ellipse`, `ellipseCorrection`, `ellipseOf`, `ellipseX`, `parseMethod` |
| centrography.py `_` | 746-768 | 15/15 | `ellipseCentre`, `ellipseGeo`, `ellipseOf` |
| centrography.py `dtot` | 772-831 | 6/6 | `dtotOf` |
| centrography.py `_` | 835-839 | 4/4 | `dtot`, `dtotOf` |
| centrography.py `_` | 843-846 | 3/3 | `dtotOf` |
| centrography.py `euclidean_median` | 850-903 | 5/5 | `PointsArg.coordinates`, `euclideanMedianOf` |
| centrography.py `_` | 907-910 | 3/3 | `euclideanMedian`, `euclideanMedianOf` |
| centrography.py `_` | 914-916 | 2/2 | `PointsArg.coordinates`, `euclideanMedianOf` |
| centrography.py `minimum_bounding_circle` | 920-984 | 3/5 | `minimumBoundingCircleOf` |
| centrography.py `_` | 988-1005 | 16/16 | `minimumBoundingCircle`, `minimumBoundingCircleOf` |
| centrography.py `_` | 1009-1012 | 3/3 | `minimumBoundingCircleGeo`, `minimumBoundingCircleOf` |
| centrography.py `_skyum_lists` | 1015-1054 | 38/38 | `skyumLists` |
| centrography.py `_angle` | 1105-1112 | 7/7 | `angle` |
| centrography.py `_prec` | 1115-1123 | 5/5 | `prec` |
| centrography.py `_succ` | 1126-1134 | 5/5 | `succ` |
| centrography.py `_euclidean_distance` | 1138-1139 | 1/1 | `euclideanDistance` |
| centrography.py `_circle` | 1143-1175 | 26/26 | `circle` |
| distance_statistics.py `_prepare` | 31-111 | 51/51 | `flinspace`, `prepare`, `resolveSupport` |
| distance_statistics.py `f` | 119-200 | 41/41 | `f`, `fDistances`, `fshares`, `shares` |
| distance_statistics.py `g` | 203-287 | 50/50 | `fg`, `fshares`, `g`, `gDistances`, `shares` |
| distance_statistics.py `j` | 290-378 | 43/43 | `alignF`, `alignG`, `fPart`, `fhazard`, `fjEnd`, `gPart`, `hazard`, `j` … |
| distance_statistics.py `k` | 381-445 | 30/30 | `fk`, `k`, `kDistances` |
| distance_statistics.py `l` | 448-504 | 11/11 | `l` |
| distance_statistics.py `_ripley_test` | 536-632 | 62/62 | `callStat`, `columnP`, `emptyLocations`, `ffolded`, `pvalues`, `ripleyTest`, `testDistances` |
| distance_statistics.py `f_test` | 635-709 | 12/12 | `fTest` |
| distance_statistics.py `g_test` | 712-784 | 12/12 | `gTest` |
| distance_statistics.py `j_test` | 787-875 | 26/26 | `jTest`, `jTestEnd` |
| distance_statistics.py `k_test` | 878-950 | 12/12 | `kTest` |
| distance_statistics.py `l_test` | 953-1028 | 13/13 | `lTest` |
| distance_statistics.py `_run_one_ripley_simulation` | 1031-1066 | 16/16 | `callStat`, `oneSimulation` |
| distance_statistics.py `_truncate` | 1069-1079 | 10/10 | `firstInvalid`, `truncate2`, `truncateResult` |
| geometry.py `area` | 36-45 | 4/4 | `Region.area` |
| geometry.py `_` | 49-55 | 2/2 | `Region.area` |
| geometry.py `_` | 59-65 | 3/3 | `Hull.ofBBox`, `Region.area`, `areaArr`, `areaBBox`, `farea` |
| geometry.py `bbox` | 70-77 | 1/1 | `Region.bounds` |
| geometry.py `_` | 81-88 | 3/3 | `Hull.ofBBox`, `Region.bounds`, `bboxArr`, `bboxPts` |
| geometry.py `_` | 92-97 | 1/1 | `Region.bounds` |
| geometry.py `contains` | 104-110 | 2/2 | `Region.contains` |
| geometry.py `_` | 114-123 | 5/5 | `Hull.ofBBox`, `Region.contains`, `containsBBox` |
| geometry.py `_` | 127-135 | 1/1 | `Region.contains` |
| geometry.py `_` | 139-146 | 3/3 | `Region.contains` |
| geometry.py `centroid` | 151-155 | 1/1 | `Region.centroid` |
| geometry.py `_` | 159-177 | 14/14 | `Region.centroid`, `centroidArr` |
| geometry.py `_` | 181-185 | 1/1 | `Region.centroid` |
| geometry.py `_` | 201-206 | 1/1 | `Region.contains` |
| geometry.py `_` | 210-215 | 1/1 | `Region.bounds` |
| geometry.py `_` | 219-223 | 1/1 | `Region.centroid` |
| geometry.py `_` | 232-237 | 1/1 | `Region.area` |
| geometry.py `_` | 241-246 | 1/1 | `Region.contains` |
| geometry.py `_` | 250-255 | 1/1 | `Region.bounds` |
| geometry.py `_` | 259-264 | 1/1 | `Region.centroid` |
| geometry.py `build_best_tree` | 272-333 | 29/29 | `buildBestTree`, `treeKNeighbors` |
| geometry.py `k_neighbors` | 336-367 | 10/10 | `kNeighbors`, `maskRow`, `treeKNeighbors` |
| geometry.py `prepare_hull` | 370-418 | 22/22 | `prepareHull` |
| kde.py `plot_density` | 4-170 | 72/72 | `coordinates`, `fftAxes`, `plotDensity`, `sizes`, `smMesh` |
| pointpattern.py `PointPattern.__init__` | 65-93 | 23/23 | `LRows.ofArray`, `LRows.ofFrame`, `Names`, `construct`, `markName`, `resolveNames` |
| pointpattern.py `PointPattern.__len__` | 95-112 | 1/1 | `len` |
| pointpattern.py `PointPattern.__contains__` | 114-127 | 2/2 | `contains` |
| pointpattern.py `PointPattern.set_window` | 129-133 | 4/4 | `setWindow` |
| pointpattern.py `PointPattern.get_window` | 135-144 | 3/3 | `getWindow` |
| pointpattern.py `PointPattern.summary` | 148-158 | 6/6 | `read`, `summary`, `windowArea` |
| pointpattern.py `PointPattern.add_marks` | 160-166 | 6/6 | `LRows.addMark`, `addMarks`, `addMarksLoop`, `defaultMarkNames`, `markName`, `read` |
| pointpattern.py `PointPattern.plot` | 168-214 | 21/21 | `plotted`, `read` |
| pointpattern.py `PointPattern._mbb` | 216-222 | 3/3 | `mbb`, `read` |
| pointpattern.py `PointPattern._mbb_area` | 226-231 | 1/1 | `mbbArea`, `read` |
| pointpattern.py `PointPattern._n` | 235-239 | 1/1 | `n`, `read` |
| pointpattern.py `PointPattern._rot` | 243-250 | 2/2 | `read`, `rot` |
| pointpattern.py `PointPattern._lambda_mbb` | 254-258 | 1/1 | `lambdaMbb`, `read` |
| pointpattern.py `PointPattern._hull` | 262-266 | 1/1 | `hull`, `read` |
| pointpattern.py `PointPattern._lambda_window` | 270-292 | 1/1 | `lambdaWindow`, `read` |
| pointpattern.py `PointPattern._hull_area` | 296-305 | 5/5 | `crossTerms`, `hullArea`, `read`, `ringArea` |
| pointpattern.py `PointPattern._lambda_hull` | 309-313 | 1/1 | `lambdaHull`, `read` |
| pointpattern.py `PointPattern._build_tree` | 317-318 | 1/1 | `read` |
| pointpattern.py `PointPattern.knn` | 322-343 | 4/4 | `knn`, `read` |
| pointpattern.py `PointPattern._nn_sum` | 345-350 | 2/2 | `nnd`, `nndFrom`, `read` |
| pointpattern.py `PointPattern._min_nnd` | 354-358 | 1/1 | `minNnd`, `read` |
| pointpattern.py `PointPattern._max_nnd` | 362-366 | 1/1 | `maxNnd`, `read` |
| pointpattern.py `PointPattern._mean_nnd` | 370-374 | 1/1 | `meanNnd`, `read` |
| pointpattern.py `PointPattern.find_pairs` | 378-394 | 1/1 | `findPairs` |
| pointpattern.py `PointPattern.knn_other` | 396-425 | 10/10 | `knnOther` |
| pointpattern.py `PointPattern.explode` | 427-448 | 5/5 | `LRows.explode`, `explode` |
| pointpattern.py `PointPattern.unique` | 450-478 | 7/7 | `LRows.unique`, `unique` |
| pointpattern.py `PointPattern.superimpose` | 480-519 | 12/12 | `LRows.superimpose`, `superimpose` |
| pointpattern.py `PointPattern.flip_coordinates` | 521-527 | 1/1 | `flipCoordinates` |
| pointpattern.py `PointPattern._facade` | 530-532 | 2/2 | `head`, `tail` |
| process.py `runif_in_circle` | 27-68 | 21/21 | `circleChunk`, `circleLoop`, `runifInCircle` |
| process.py `PointProcess.__init__` | 105-124 | 19/19 | `asPatterns`, `poissonPatterns`, `realizations` |
| process.py `PointProcess.draw` | 126-151 | 10/10 | `draw`, `toPoints` |
| process.py `PointProcess.realize` | 153-154 | 0/1 | — |
| process.py `PointProcess.setup` | 156-157 | 0/1 | — |
| process.py `PoissonPointProcess.__init__` | 252-254 | 2/2 | `poissonPatterns`, `poissonProcess`, `poissonSizes` |
| process.py `PoissonPointProcess.setup` | 256-272 | 8/8 | `poissonPatterns`, `poissonProcess`, `poissonSizes` |
| process.py `PoissonPointProcess.realize` | 274-294 | 4/4 | `poissonPatterns`, `poissonProcess`, `poissonRealize` |
| process.py `PoissonClusterPointProcess.__init__` | 410-426 | 6/6 | `clusterProcess`, `numChildren` |
| process.py `PoissonClusterPointProcess.setup` | 428-449 | 12/12 | `clusterProcess`, `clusterSizes` |
| process.py `PoissonClusterPointProcess.realize` | 451-479 | 11/11 | `childrenOf`, `clusterProcess`, `clusterRealize` |
| quadrat_statistics.py `_as_points_array` | 33-77 | 22/22 | `asPoints`, `asPointsArray`, `isMissing`, `isPoints` |
| quadrat_statistics.py `_compute_mbb` | 80-85 | 5/5 | `computeMbb`, `ensureWindow` |
| quadrat_statistics.py `_ensure_window` | 88-91 | 0/3 | — |
| quadrat_statistics.py `_coerce_rng` | 94-127 | 12/12 | `coerceRng` |
| quadrat_statistics.py `_window_to_paths` | 130-152 | 18/18 | `windowToPaths` |
| quadrat_statistics.py `_scatter_points` | 155-156 | 0/1 | — |
| quadrat_statistics.py `_draw_window` | 159-161 | 2/2 | `drawWindow` |
| quadrat_statistics.py `_cell_center_from_bounds` | 164-165 | 1/1 | `cellCenterFromBounds` |
| quadrat_statistics.py `RectangleM.__init__` | 176-203 | 16/16 | `RectangleM.init`, `rectInit`, `rectangleOf` |
| quadrat_statistics.py `RectangleM.point_location_sta` | 205-225 | 16/16 | `RectangleM.cellId`, `RectangleM.pointLocationSta`, `RectangleM.zeroDict`, `clampIndex`, `rectCellId`, `rectCounts`, `rectangleOf` |
| quadrat_statistics.py `RectangleM._rect_cell_bounds` | 227-232 | 5/5 | `rectBounds`, `rectCellBounds` |
| quadrat_statistics.py `RectangleM._rect_cell_polygon` | 234-236 | 2/2 | `rectCellPolygon` |
| quadrat_statistics.py `RectangleM._iter_cells` | 238-245 | 7/7 | `RectangleM.iterCellIds`, `RectangleM.iterCells`, `RectangleM.plotCells` |
| quadrat_statistics.py `RectangleM.plot` | 247-300 | 38/38 | `RectangleM.plot`, `RectangleM.plotCells`, `RectangleM.plotCounts`, `gridPlot`, `gridPlotChi2` |
| quadrat_statistics.py `HexagonM.__init__` | 311-335 | 19/19 | `HexagonM.init`, `hexCountColumn`, `hexCountRowEven`, `hexCountRowOdd`, `hexagonOf` |
| quadrat_statistics.py `HexagonM.point_location_sta` | 337-405 | 57/57 | `HexagonM.cellId`, `HexagonM.cellIndex`, `HexagonM.pointLocationSta`, `HexagonM.zeroDict`, `hexIndicator` |
| quadrat_statistics.py `HexagonM._hex_vertices` | 407-421 | 14/14 | `hexVertices` |
| quadrat_statistics.py `HexagonM._iter_cells` | 423-441 | 13/13 | `HexagonM.cellCenter`, `HexagonM.plotCells`, `HexagonM.plotCounts` |
| quadrat_statistics.py `HexagonM.plot` | 443-496 | 38/38 | `HexagonM.plot`, `HexagonM.plotCells`, `HexagonM.plotCounts`, `gridPlot`, `gridPlotChi2` |
| quadrat_statistics.py `QStatistic.__init__` | 607-685 | 54/54 | `Dict.numbers`, `chi2Contrib`, `chi2RPvalue`, `df`, `fchi2RPvalue`, `fchisquare`, `fterm`, `gridCounts` … |
| quadrat_statistics.py `QStatistic.plot` | 687-705 | 13/13 | `plottedContrib`, `qstatPlot`, `qstatPlotChi2` |
| random.py `parse_size_and_intensity` | 41-120 | 46/46 | `parseSizeAndIntensity`, `simulatedSize` |
| random.py `poisson` | 128-188 | 19/19 | `Hull.ofBBox`, `boxCandidate`, `poisson`, `poissonReps`, `rejection`, `replications`, `ripleyTest` |
| random.py `normal` | 191-284 | 47/47 | `CovArg.at`, `normal`, `normalCandidate`, `rejection`, `replicationCor`, `replications`, `resolveCov` |
| random.py `cluster_poisson` | 287-387 | 45/45 | `clusterLoop`, `clusterPoints`, `clusterPoisson`, `clusterPoissonReps`, `clusterRadii` |
| random.py `cluster_normal` | 390-468 | 36/36 | `clusterNormal`, `clusterNormalLoop`, `clusterNormalReps`, `meanSpacingSq` |
| random.py `_uniform_circle` | 471-551 | 33/33 | `circleChunk`, `circleLoop`, `uniformCircle` |
| random.py `_pairwise_count_kdtree` | 554-558 | 3/3 | `pairCount` |
| random.py `strauss` | 561-702 | 51/51 | `strauss`, `straussAttempts`, `straussIter`, `straussStep`, `straussTake` |
| spacetime.py `SpaceTimeEvents.__init__` | 141-179 | 31/31 | `inferTimes`, `spaceTimeEvents` |
| spacetime.py `knox` | 182-283 | 20/20 | `knox`, `knoxAny`, `knoxLoop`, `knoxPvalue`, `timeClose` |
| spacetime.py `mantel` | 286-398 | 22/22 | `mantel`, `mantelStat`, `pvalueGe`, `transformed`, `trilVec` |
| spacetime.py `jacquez` | 401-513 | 38/38 | `fpvalue`, `jacquez`, `jacquezAny`, `pvalueGe`, `sharedNeighbours` |
| spacetime.py `modified_knox` | 516-644 | 38/38 | `columnSumsMinusOne`, `fmodifiedKnox`, `fmodifiedKnoxStat`, `fpvalue`, `modifiedKnox`, `modifiedKnoxAny`, `modifiedKnoxStat`, `pvalueGe` … |
| spacetime.py `_shuffle_matrix` | 647-664 | 2/2 | `shuffleMatrix` |
| spacetime.py `_knox` | 667-850 | 79/79 | `halfTotal`, `knoxGlobal`, `neighbourSets`, `permutedCount`, `stPairs` |
| spacetime.py `Knox.__init__` | 941-958 | 16/16 | `knoxInit` |
| spacetime.py `Knox.from_dataframe` | 961-1001 | 2/2 | `knoxFromDataframe` |
| spacetime.py `_knox_local` | 1004-1119 | 64/64 | `adjacency`, `focalPermutation`, `knoxLocal`, `localCounts`, `localPermuted`, `orientation` |
| spacetime.py `KnoxLocal.__init__` | 1229-1296 | 52/52 | `gdfGeometry`, `knoxLocalInit` |
| spacetime.py `KnoxLocal._gdf` | 1299-1300 | 1/1 | `gdfGeometry` |
| spacetime.py `KnoxLocal.from_dataframe` | 1303-1352 | 11/11 | `knoxLocalFromDataframe` |
| spacetime.py `KnoxLocal.hotspots` | 1354-1429 | 42/42 | `hotTable`, `hotspots`, `pvalueColumn`, `touching` |
| spacetime.py `KnoxLocal.plot` | 1431-1518 | 41/43 | `colourColumn`, `locGeometry`, `plotColours`, `plotEdges`, `plotPoints`, `pvalueColumn` |
| spacetime.py `KnoxLocal.explore` | 1520-1621 | 43/47 | `exploreNeighbors`, `explorePoints`, `locGeometry`, `plotEdges` |
| spacetime.py `KnoxLocal._gdfhs` | 1623-1631 | 0/7 | — |
| spacetime.py `_spacetime_points_to_arrays` | 1634-1677 | 23/23 | `pointsToArrays` |
| util.py `cached_property` | 5-22 | 10/10 | `Cache`, `cached` |
| window.py `poly_from_bbox` | 20-23 | 3/3 | `polyFromBBox` |
| window.py `to_ccf` | 26-29 | 3/3 | `toCcf` |
| window.py `as_window` | 32-50 | 4/4 | `asWindow` |
| window.py `Window.__init__` | 72-76 | 4/4 | `mk` |
| window.py `Window.filter_contained` | 78-79 | 1/1 | `filterContained` |

In total 2256 of 2285 lines.

### What is not modelled

* Warnings, `print`, docstrings, and everything matplotlib, seaborn and folium do with what they are given: plots are modelled as the lists of
  polygons, numbers, lines and colours handed to them.
* `tests/`, `__init__.py`, the notebooks and the build files.
* The numerical algorithms inside the libraries named above, except where a formula is given.
* Types of results where only the type differs (an array or a `shapely.Point`), memory layout, and running time.
* Arguments outside the documented types, except where a theorem says which exception they raise.

Lines of functions that no definition cites:

* centrography.py `minimum_bounding_rectangle`: 101-102
* centrography.py `minimum_rotated_rectangle`: 195-196
* centrography.py `hull`: 297-298
* centrography.py `ellipse`: 667-668
* centrography.py `minimum_bounding_circle`: 983-984
* process.py `PointProcess.realize`: 154
* process.py `PointProcess.setup`: 157
* quadrat_statistics.py `_ensure_window`: 89-91
* quadrat_statistics.py `_scatter_points`: 156
* spacetime.py `KnoxLocal.plot`: 1506, 1518
* spacetime.py `KnoxLocal.explore`: 1617-1619, 1621
* spacetime.py `KnoxLocal._gdfhs`: 1625-1631

### Properties the code does not have

For these a theorem with `_refuted` in its name proves the negation on a concrete case, or for a whole class of inputs; the part that holds is proved beside it.

* **C02** lambda_window is the intensity over the current window: `C02_lambda_window_refuted`
* **C04** The constructor does not alter its arguments: `C04_constructor_arguments_refuted`
* **C05** add_marks never overwrites existing data: `C05_add_marks_refuted`
* **C07** unique keeps the study window: `C07_unique_window_refuted`
* **C12** A point is never its own neighbour in knn: `C12_own_neighbour_refuted`
* **C16** Membership test of a pattern looks at its coordinates: `C16_contains_refuted`
* **C33** minimum_bounding_circle contains all events and no smaller circle does: `C33_contains_refuted`
* **C38** A Poisson cluster process can be realised: `C38_cluster_process_refuted`, `C38_conditioned_refuted`
* **C42** The shape of simulated patterns identifies replication and observation axes: `C42_shape_refuted`, `C42_single_refuted`
* **C43** random.normal uses the requested covariance: `C43_covariance_refuted`, `C43_correlation_refuted`
* **C44** Cluster samplers return the requested number of points inside the hull and near their seeds: `C44_cluster_poisson_refuted`, `C44_one_seed_refuted`
* **C45** Replications of cluster_normal do not influence one another: `C45_replications_refuted`
* **C46** strauss returns exactly the requested number of points inside the hull or raises: `C46_strauss_refuted`
* **C47** strauss with gamma = 0 is a hard core process: `C47_hard_core_refuted`
* **C50** Degenerate patterns are rejected or counted by the rectangular grid: `C50_degenerate_refuted`
* **C51** Hexagonal quadrat counts add up to the number of points: `C51_hexagon_counts_refuted`
* **C52** Each point is assigned to a hexagon containing it: `C52_hexagon_assignment_refuted`
* **C53** HexagonM.num is the number of hexagons: `C53_hexagon_num_refuted`
* **C55** Simulation p-values of QStatistic are valid: `C55_one_realization_refuted`
* **C59** G and F report the share of all events: `C59_g_refuted`
* **C63** Simulation p-values of the Ripley family are valid: `C63_first_pvalue_refuted`
* **C65** f_test and f use the same empty-space distances: `C65_f_test_refuted`
* **C66** The Knox statistic counts close pairs: `C66_no_close_pair_refuted`, `C66_inputs_modified_refuted`, `C66_negative_tau_refuted`
* **C67** Permutation p-values of the space-time tests are valid: `C67_knox_all_larger_refuted`, `C67_knox_order_refuted`
* **C79** Hot spot clusters are the connected components of significant events: `C79_linked_events_split_refuted`
* **C81** The density grid covers the data: `C81_fft_tuple_refuted`
* **C83** j_test returns its result: `C83_j_test_refuted`
* **C84** G from a distance matrix equals G from the coordinates: `C84_matrix_refuted`
* **C85** f_test draws its locations in the study region: `C85_region_refuted`
* **C86** k_test normalises by the study region: `C86_k_test_refuted`
* **C87** j_test truncation cuts the simulated curves along with the support: `C87_simulations_refuted`
* **C90** SpaceTimeEvents reads the shape file and its database: `C90_database_refuted`
* **C92** The rectangle drawn for a cell contains the points counted in it, in floating point arithmetic: `C92_float_drawn_cells_refuted`
* **C93** mean_center in floating point arithmetic: `C93_float_mean_center_refuted`
* **C94** std_distance is a number in floating point arithmetic: `C94_float_std_distance_refuted`
* **C95** Rotated rectangle angles are below 90 in floating point arithmetic: `C95_float_angle_refuted`
* **C101** The bounding circle polygon of a GeoPandas object contains its events: `C101_circle_polygon_refuted`
* **C102** Simulated patterns have as many points as the observed one: `C102_float_simulated_size_refuted`
* **C103** Simulated quadrat statistics use the quadrats of the observed pattern: `C103_same_quadrats_refuted`, `C103_same_cells_refuted`
* **C104** Permutation tests keep their level: `C104_mantel_level_refuted`, `C104_knox_level_refuted`
* **C106** The simulated quadrat test keeps its level: `C106_width_refuted`
* **C107** The simulated tests of the distance functions keep their level: `C107_level_refuted`
* **C111** The lines of the hot spot plot connect every significant event with its neighbours: `C111_missing_line_refuted`
* **C112** The hot spot plots use the colours asked for: `C112_explore_palette_refuted`
* **C113** The centres of simulated clusters are spread over the hull by chance: `C113_shared_centres_refuted`, `C113_cluster_poisson_refuted`, `C113_cluster_normal_refuted`
* **C114** The representation of a study region does not matter: `C114_centroid_refuted`, `C114_border_refuted`
* **C115** The drawn hexagons tile the bounding box: `C115_gap_refuted`
* **C117** The form of the events does not matter to the centrographic measures: `C117_dtot_refuted`, `C117_weights_refuted`
* **C121** Realisations as point patterns are those as arrays: `C121_empty_refuted`
* **C127** The order of the events does not matter to the distance functions and their tests: `C127_f_test_refuted`
* **C128** Turning or reflecting the study area does not change the distance functions: `C128_turned_refuted`
* **C130** The bounding circle and the rotated rectangle move along with the events: `C130_start_refuted`
* **C132** Simulated patterns do not depend on the units or the origin: `C132_strauss_refuted`
* **C134** Places and times of different number are refused: `C134_knox_refuted`, `C134_jacquez_refuted`
* **C136** Unusable quadrat grids are refused: `C136_negative_side_refuted`
* **C137** The form and the order of the events do not matter to hulls, rectangles, ellipses and circles: `C137_several_points_refuted`
* **C138** The neighbours listed by knn and knn_other are events: `C138_missing_neighbours_refuted`, `C138_missing_other_refuted`
* **C139** Centrographic measures that have no meaning are reported as nan, not as numbers: `C139_weighted_refuted`
* **C140** Functions that report the same quantity agree: `C140_k_refuted`
* **C141** Events that all happen at the same time or place show no interaction: `C141_jacquez_refuted`, `C141_knox_refuted`, `C141_mantel_refuted`
* **C142** The moves of the Strauss sampler satisfy detailed balance: `C142_two_points_refuted`
* **C144** Without interaction the Strauss sampler returns independent uniform points: `C144_refuted`
* **C152** The tests of the Ripley family do not report significance where the curve has no value: `C152_nan_refuted`, `C152_g_test_refuted`
* **C155** The tests of the Ripley family accept every pattern that their functions accept: `C155_single_refuted`
* **C156** A mark is given to the events in the order of its values: `C156_series_refuted`
* **C158** The simulated quadrat test counts ties, in floating point arithmetic: `C158_ties_refuted`
* **C159** modified_knox counts ties, in floating point arithmetic: `C159_ties_refuted`
* **C161** Which draws shape a cluster of cluster_normal: `C161_copies_refuted`
* **C163** The two kinds of p-value of KnoxLocal test the same hypothesis: `C163_conditional_refuted`
* **C165** The analytical p-value of Knox is one-sided: `C165_poisson_refuted`
* **C166** K and L are centred for completely random events: `C166_mean_refuted`
* **C168** The quadrat statistic of random events is centred on its degrees of freedom: `C168_mean_refuted`
* **C169** summary, head and tail show the pattern as it is now: `C169_summary_refuted`
* **C170** There is one Euclidean median and euclidean_median returns it: `C170_unique_refuted`
* **C171** The analytical reference of QStatistic fits every study window: `C171_centred_refuted`
* **C172** The standard distance and the standard deviational ellipse describe the same spread and hold events: `C172_ellipse_refuted`
* **C173** The chance that KnoxLocal reports any event when there is no interaction is at most the critical value: `C173_some_event_refuted`
* **C174** manhattan_median warns exactly when the Manhattan median is not unique: `C174_warning_refuted`
* **C175** G and K describe the same neighbours: `C175_between_refuted`
* **C177** Adding events never makes the measures of extent, spread or clustering smaller: `C177_spread_refuted`
* **C178** The value of a distance function at a distance does not depend on the other distances asked for: `C178_g_refuted`
* **C179** plot draws the events where the pattern has them: `C179_plotted_refuted`
* **C180** The measures of a superimposed pattern follow from those of its parts: `C180_superimposed_refuted`
* **C182** Asking for more neighbours never removes a neighbour: `C182_knn_refuted`, `C182_jacquez_refuted`
* **C190** The centroid of a region is the mean position of its points: `C190_hull_refuted`
* **C192** mean_center and std_distance of completely random events estimate the position and the spread of the region: `C192_std_distance_refuted`

{"id": "C01", "title": "Point-derived attributes never depend on the history of reads and updates", "statement": "For a PointPattern built from a table of points, every attribute computed from the coordinates (n, mbb, mbb_area, rot, lambda_mbb, hull_area, lambda_hull) returns, whenever it is read, the value of its defining formula on the coordinates given to the constructor, whatever sequence of attribute reads, add_marks, window assignments and flip_coordinates calls came before; reading twice gives the same value.", "quantifier": "all point tables, all finite histories of public operations and attribute reads", "why_tests_cant": "The cache is filled lazily, so a wrong result would only show after particular interleavings of reads and updates; tests read each attribute once on a fresh object.", "anchors": ["pointpats/pointpattern.py:PointPattern", "pointpats/util.py:cached_property"]}
{"id": "C02", "title": "lambda_window is the intensity over the current window", "statement": "Reading pp.lambda_window returns n divided by the area of the window that pp.window currently returns.", "quantifier": "all patterns, all histories that may assign pp.window or call set_window", "why_tests_cant": "Depends on the order of a read and a later window assignment; there are unboundedly many histories.", "anchors": ["pointpats/pointpattern.py:PointPattern.lambda_window", "pointpats/pointpattern.py:PointPattern.set_window", "pointpats/util.py:cached_property"]}
{"id": "C03", "title": "Default window is the bounding box, so default intensities agree", "statement": "If no window is passed, the pattern's window is the closed rectangle of the bounding box of its points: its area is (max x - min x)*(max y - min y), every point of the pattern is in it, and lambda_window equals lambda_mbb when that area is positive.", "quantifier": "all non-empty point tables", "why_tests_cant": "Requires a geometric argument over all coordinates, including repeated, collinear and negative ones.", "anchors": ["pointpats/pointpattern.py:PointPattern.__init__", "pointpats/window.py:as_window", "pointpats/window.py:poly_from_bbox"]}
{"id": "C04", "title": "The constructor does not alter its arguments", "statement": "Constructing a PointPattern leaves the lists passed as names and coord_names unchanged, so the same lists can be used to construct a second pattern of the same shape.", "quantifier": "all tables with two or more columns, all names / coord_names lists", "why_tests_cant": "Aliasing bugs appear only for some combinations of optional arguments and column counts, and only on the second use.", "anchors": ["pointpats/pointpattern.py:PointPattern.__init__"]}
{"id": "C05", "title": "add_marks never overwrites existing data", "statement": "add_marks with default names adds exactly one new column per mark with the given values and leaves all existing columns (coordinates and earlier marks) unchanged.", "quantifier": "all patterns, all histories of earlier add_marks calls with default or user-chosen names", "why_tests_cant": "Whether two generated names collide depends on the whole naming history.", "anchors": ["pointpats/pointpattern.py:PointPattern.add_marks"]}
{"id": "C06", "title": "unique removes exactly the duplicate events", "statement": "pp.unique() contains each distinct event of pp (coordinates and marks) exactly once, in order of first occurrence, and nothing else; names are kept; applying unique again changes nothing.", "quantifier": "all patterns with any number and arrangement of repeated points", "why_tests_cant": "A universally quantified statement about multisets of points; tests use one 10-point example.", "anchors": ["pointpats/pointpattern.py:PointPattern.unique"]}
{"id": "C07", "title": "unique keeps the study window", "statement": "pp.unique() has the same window as pp, and its window can be used (area, membership).", "quantifier": "all patterns and windows", "why_tests_cant": "Needs a look at the object passed on, not at the point table that tests compare.", "anchors": ["pointpats/pointpattern.py:PointPattern.unique"]}
{"id": "C08", "title": "superimpose is the union of the two patterns", "statement": "pp.superimpose(qq) raises TypeError exactly when the column names or coordinate names differ; otherwise its rows are the distinct rows of the two patterns, in order of first occurrence in pp followed by qq; the set of rows does not depend on the order of the operands and superimposing a pattern on itself gives its distinct rows.", "quantifier": "all pairs of patterns", "why_tests_cant": "Universal statement over pairs of tables; tests use one pair.", "anchors": ["pointpats/pointpattern.py:PointPattern.superimpose"]}
{"id": "C09", "title": "explode partitions the pattern by mark", "statement": "pp.explode(mark) returns one pattern per distinct value of the mark, in increasing order of the value; each contains exactly the rows with that value in the original order; the sizes add up to n; no returned pattern is empty.", "quantifier": "all marked patterns, any number of mark values", "why_tests_cant": "Partition must hold for every marking.", "anchors": ["pointpats/pointpattern.py:PointPattern.explode"]}
{"id": "C10", "title": "flip_coordinates is an involution that only exchanges the coordinate columns", "statement": "After pp.flip_coordinates(), the x and y column names are exchanged; after a second call the pattern reads as before; n, mbb and marks never change.", "quantifier": "all patterns and histories", "why_tests_cant": "History property.", "anchors": ["pointpats/pointpattern.py:PointPattern.flip_coordinates"]}
{"id": "C11", "title": "PointPattern.knn returns the k nearest other events", "statement": "For 1 <= k <= n-1, the distances in row i of pp.knn(k) are the k smallest distances from event i to the other events, in non-decreasing order, whatever way the spatial index breaks ties; if all events are at distinct locations the neighbour ids in row i are k distinct ids different from i at these distances; k < 1 raises ValueError.", "quantifier": "all point sets, all k, every tie-breaking order of the KD-tree", "why_tests_cant": "Tie-breaking is an implementation choice of the index; tests see only one order.", "anchors": ["pointpats/pointpattern.py:PointPattern.knn"]}
{"id": "C12", "title": "A point is never its own neighbour in knn", "statement": "Row i of the neighbour ids returned by pp.knn(k) never contains i.", "quantifier": "all point sets including coincident events, every tie-breaking order of the KD-tree", "why_tests_cant": "Depends on coincident points and on tie-breaking.", "anchors": ["pointpats/pointpattern.py:PointPattern.knn"]}
{"id": "C13", "title": "Nearest neighbour distances and their summaries are consistent", "statement": "nnd is the vector of distances to a nearest other event; min_nnd, mean_nnd and max_nnd are its minimum, mean and maximum, so min_nnd <= mean_nnd <= max_nnd; knn_other(other,k) gives, for every event of pp, the k smallest distances to events of other; both are unchanged if the events of the queried pattern are listed in another order.", "quantifier": "all point sets with at least two events, every tie-breaking order", "why_tests_cant": "Universal over point sets and orders.", "anchors": ["pointpats/pointpattern.py:PointPattern.nnd", "pointpats/pointpattern.py:PointPattern.knn_other", "pointpats/pointpattern.py:PointPattern._nn_sum"]}
{"id": "C14", "title": "find_pairs returns exactly the close pairs", "statement": "pp.find_pairs(r) is the set of index pairs (i, j), i < j, whose distance is at most r; it grows with r and has at most n(n-1)/2 elements.", "quantifier": "all point sets, all radii r >= 0", "why_tests_cant": "Universal over point sets and radii.", "anchors": ["pointpats/pointpattern.py:PointPattern.find_pairs"]}
{"id": "C15", "title": "Hull area does not depend on the starting vertex, on closing the ring or on the position of the origin", "statement": "hull_area computed from the hull vertices is the same for every rotation of the vertex list and for every translation of the pattern, scales with the square of a scale factor, and is non-negative for a counter-clockwise convex ring; for a rectangle it is width times height.", "quantifier": "all vertex lists", "why_tests_cant": "An identity over arbitrary polygons.", "anchors": ["pointpats/pointpattern.py:PointPattern.hull_area"]}
{"id": "C16", "title": "Membership test of a pattern looks at its coordinates", "statement": "(x, y) in pp is true exactly when some event of pp has coordinates x and y.", "quantifier": "all patterns including those whose coordinate columns are not the first two columns", "why_tests_cant": "Only shows with particular column layouts.", "anchors": ["pointpats/pointpattern.py:PointPattern.__contains__"]}
{"id": "C17", "title": "Rings handed to windows are closed, once", "statement": "to_ccf closes an open ring by repeating its first vertex, leaves a closed ring alone, and applying it twice is the same as applying it once; poly_from_bbox of (left, bottom, right, top) is a closed ring with corners exactly the four corners and area (right-left)*(top-bottom).", "quantifier": "all vertex lists, all boxes", "why_tests_cant": "Universal over rings.", "anchors": ["pointpats/window.py:to_ccf", "pointpats/window.py:poly_from_bbox"]}
{"id": "C18", "title": "filter_contained keeps exactly the points inside, in order", "statement": "Window.filter_contained(points) is the sub-list of points that the window contains, in order, with multiplicities.", "quantifier": "all point lists and windows", "why_tests_cant": "Universal over lists.", "anchors": ["pointpats/window.py:Window.filter_contained"]}
{"id": "C19", "title": "The bounding box is the smallest closed axis-parallel box containing the points", "statement": "bbox(points) = (xmin, ymin, xmax, ymax) contains every point (contains(bbox, x, y) is true) and is contained in every box that does; minimum_bounding_rectangle and PointPattern.mbb return the same four numbers; the box of the corners of a box is the box itself.", "quantifier": "all non-empty coordinate arrays", "why_tests_cant": "Universal over coordinates; extremal property needs all competitors.", "anchors": ["pointpats/geometry.py:bbox", "pointpats/geometry.py:contains", "pointpats/centrography.py:minimum_bounding_rectangle", "pointpats/pointpattern.py:PointPattern.mbb"]}
{"id": "C20", "title": "area and containment of a bounding box", "statement": "area of a 4-vector is |(right-left)*(top-bottom)|, other lengths raise AssertionError; contains(box,x,y) is true exactly on the closed box; the area is monotone under inclusion of boxes and is zero exactly for degenerate boxes; the centroid of a proper box lies in it.", "quantifier": "all 4-vectors and all points", "why_tests_cant": "Universal.", "anchors": ["pointpats/geometry.py:area", "pointpats/geometry.py:contains", "pointpats/geometry.py:centroid"]}
{"id": "C21", "title": "k_neighbors excludes the query point and returns the nearest others", "statement": "For query points equal to the tree's points and 1 <= k <= n-1, k_neighbors(tree, points, k) returns for every row i exactly k ids, all distinct and different from i, with the k smallest distances to other points in non-decreasing order, whatever way the tree breaks ties, including coincident points.", "quantifier": "all point sets, all k, every tie-breaking order", "why_tests_cant": "The self index may appear anywhere in a group of coincident points, or not at all.", "anchors": ["pointpats/geometry.py:k_neighbors"]}
{"id": "C22", "title": "build_best_tree picks an index that supports the metric", "statement": "A callable metric yields a BallTree on the coordinates; haversine yields a BallTree; a metric known to KD-trees yields a KD-tree; any other known metric a BallTree; an unknown metric or a callable without scikit-learn raises.", "quantifier": "all metrics and coordinates, with and without scikit-learn", "why_tests_cant": "Decision table over metric names and installed packages.", "anchors": ["pointpats/geometry.py:build_best_tree"]}
{"id": "C23", "title": "prepare_hull always yields a usable region or an error", "statement": "prepare_hull returns the bounding box of the points for None and 'bbox', the given box for a one-dimensional 4-vector, the convex hull for names starting with 'convex', the alpha shape for names starting with 'alpha', and geometries unchanged; other arrays and other arguments raise.", "quantifier": "all hull arguments", "why_tests_cant": "Decision table.", "anchors": ["pointpats/geometry.py:prepare_hull"]}
{"id": "C24", "title": "mean_center is the centre of mass", "statement": "mean_center lies in the minimum bounding rectangle, is equivariant under translation and scaling, independent of the order of the points, and is the unique minimiser of the sum of squared distances.", "quantifier": "all non-empty point sets", "why_tests_cant": "Extremal property over all competitor locations.", "anchors": ["pointpats/centrography.py:mean_center"]}
{"id": "C25", "title": "weighted_mean_center generalises mean_center", "statement": "With positive weights it lies in the bounding rectangle, it does not change when all weights are multiplied by a positive factor, equals mean_center for equal weights, equals the mean center of the pattern in which point i is repeated w_i times for integer weights, and minimises the weighted sum of squared distances.", "quantifier": "all point sets and positive weight vectors", "why_tests_cant": "Universal over weights.", "anchors": ["pointpats/centrography.py:weighted_mean_center"]}
{"id": "C26", "title": "manhattan_median minimises total Manhattan distance", "statement": "The returned location minimises the sum over events of |x - x_i| + |y - y_i| over all locations, for odd and even numbers of events.", "quantifier": "all non-empty point sets", "why_tests_cant": "Minimality over a continuum of competitors.", "anchors": ["pointpats/centrography.py:manhattan_median"]}
{"id": "C27", "title": "std_distance is the root mean squared distance from the mean center", "statement": "std_distance squared equals the mean of squared distances to mean_center; it is non-negative, zero exactly if all events coincide, translation invariant, and scales with |c|; half the mean squared pairwise distance equals its square.", "quantifier": "all non-empty point sets", "why_tests_cant": "Algebraic identity over all inputs.", "anchors": ["pointpats/centrography.py:std_distance"]}
{"id": "C28", "title": "The standard deviational ellipse's axes and angle describe the directions of extreme spread", "statement": "For events that are not all in one place, the ellipse returns semi-axes with major >= minor >= 0 and an angle such that no other direction has a larger (weighted) variance than the major axis direction and none a smaller one than the direction perpendicular to it.", "quantifier": "all point sets with at least three events, methods crimestat and yuill with and without weights", "why_tests_cant": "Extremal statement over a continuum of directions, with a special case when the rotation is undefined.", "anchors": ["pointpats/centrography.py:ellipse"]}
{"id": "C29", "title": "Ellipse corrections only rescale", "statement": "method, crimestatCorr and degfreedCorr only multiply both axes by one common positive factor depending on n (sqrt(2 n/(n-2)) and so on); the angle does not depend on them; invalid method or wrong weight length raise ValueError.", "quantifier": "all point sets and option combinations", "why_tests_cant": "Combination table times universal statement.", "anchors": ["pointpats/centrography.py:ellipse"]}
{"id": "C30", "title": "dtot is a convex, 1-Lipschitz-per-event total distance", "statement": "dtot(c, points) is non-negative, zero exactly if all events are at c, convex in c, additive over concatenation, invariant to order and to joint translation, and |dtot(c)-dtot(c')| <= n*|c-c'|; so every local minimiser is a Euclidean median, and the Euclidean median of collinear points can be taken as their median.", "quantifier": "all point sets and locations", "why_tests_cant": "Inequality over a continuum.", "anchors": ["pointpats/centrography.py:dtot", "pointpats/centrography.py:euclidean_median"]}
{"id": "C31", "title": "The circle through three hull vertices is their circumcircle", "statement": "When the three points are not nearly collinear, the circle computed from them passes through all three: the returned centre is at distance radius from each.", "quantifier": "all non-degenerate triples", "why_tests_cant": "Algebraic identity over a continuum.", "anchors": ["pointpats/centrography.py:_circle"]}
{"id": "C32", "title": "minimum_bounding_circle always terminates with a circle determined by hull vertices", "statement": "On every hull with at least two vertices the elimination loop stops after at most (number of vertices - 1) removals, and the result is the circle of three consecutive remaining vertices (or two vertices).", "quantifier": "all lists of at least two different vertices, convex or not, in exact arithmetic", "why_tests_cant": "Loop termination for all inputs.", "anchors": ["pointpats/centrography.py:_skyum_lists", "pointpats/centrography.py:_skyum_numba"]}
{"id": "C33", "title": "minimum_bounding_circle contains all events and no smaller circle does", "statement": "Every event is within the returned radius of the returned centre and any circle containing all events has at least that radius.", "quantifier": "all point sets", "why_tests_cant": "Extremal geometric statement.", "anchors": ["pointpats/centrography.py:minimum_bounding_circle"]}
{"id": "C34", "title": "The list and the compiled implementation of the bounding circle agree", "statement": "Both implementations remove a vertex whose (radius, angle) pair is lexicographically largest; if that vertex is unique at every step they return the same circle.", "quantifier": "all hulls", "why_tests_cant": "Needs a simulation argument over loop iterations.", "anchors": ["pointpats/centrography.py:_skyum_lists", "pointpats/centrography.py:_skyum_numba"]}
{"id": "C35", "title": "Rotated rectangle angles are in [0, 90)", "statement": "The angle returned with minimum_rotated_rectangle(return_angle=True) is in [0, 90) degrees and is the direction of one side modulo 90 degrees, whichever side or vertex the rectangle is listed from.", "quantifier": "all rectangles and listings of their corners", "why_tests_cant": "Universal over rectangles.", "anchors": ["pointpats/centrography.py:_get_mrr_angle"]}
{"id": "C36", "title": "Realisations of a point process have the requested size and lie in the window", "statement": "For an unconditioned Poisson process every realisation has exactly n points, each of them inside the window, and there are exactly `samples` of them, keyed 0..samples-1; with conditioning the sizes are the drawn Poisson counts.", "quantifier": "all windows, n, samples, all random draws for which the sampler stops", "why_tests_cant": "Randomness: must hold for every draw.", "anchors": ["pointpats/process.py:PointProcess.draw", "pointpats/process.py:PointProcess.realize", "pointpats/process.py:PoissonPointProcess"]}
{"id": "C37", "title": "runif_in_circle stays in its circle", "statement": "runif_in_circle(n, radius, center) returns exactly n points at distance at most radius from center, for every outcome of the random draws.", "quantifier": "all n, radii, centres and draws", "why_tests_cant": "Randomness.", "anchors": ["pointpats/process.py:runif_in_circle"]}
{"id": "C38", "title": "A Poisson cluster process can be realised", "statement": "Constructing PoissonClusterPointProcess(window, n, parents, radius, samples) yields samples realisations with n points each.", "quantifier": "all windows and parameters with n >= 1 and samples >= 1", "why_tests_cant": "Tests skip the construction that fails.", "anchors": ["pointpats/process.py:PoissonClusterPointProcess"]}
{"id": "C39", "title": "size / intensity resolution is total and consistent", "statement": "parse_size_and_intensity returns (n_observations, n_simulations, intensity) with n_observations = int(intensity*area) or intensity = n_observations/area; a tuple size with an intensity raises ValueError; unsupported sizes raise TypeError/ValueError; defaults are 100 points in one replication.", "quantifier": "all argument combinations and hull areas", "why_tests_cant": "Decision table times arithmetic.", "anchors": ["pointpats/random.py:parse_size_and_intensity"]}
{"id": "C40", "title": "random.poisson returns the requested number of points, all inside the hull", "statement": "Whenever poisson returns, there are n_simulations replications of n_observations points and every point is contained in the hull; for a bounding box hull exactly n_simulations*n_observations draws are used.", "quantifier": "all hulls, sizes and random streams", "why_tests_cant": "Randomness and rejection loop.", "anchors": ["pointpats/random.py:poisson"]}
{"id": "C41", "title": "Splitting one stream: replications are the stream cut into pieces", "statement": "With the same seed, poisson(hull, size=(n, s)) and poisson(hull, size=(n*s, 1)) give the same points in the same order, and two successive calls that share a generator give the points of one longer call.", "quantifier": "all hulls, sizes and random streams", "why_tests_cant": "Needs a statement about all streams.", "anchors": ["pointpats/random.py:poisson"]}
{"id": "C42", "title": "The shape of simulated patterns identifies replication and observation axes", "statement": "A result for (n, s) can be indexed as result[replication][observation]; distinct requests give distinguishable shapes.", "quantifier": "all sizes", "why_tests_cant": "Corner sizes (1 point, 1 replication).", "anchors": ["pointpats/random.py:poisson", "pointpats/random.py:normal"]}
{"id": "C43", "title": "random.normal uses the requested covariance", "statement": "normal(hull, cov=S) draws candidate points from the bivariate normal with covariance S centred at the given centre; a valid covariance matrix never leads to an invalid correlation matrix.", "quantifier": "all covariance arguments", "why_tests_cant": "Tests only check sizes and containment.", "anchors": ["pointpats/random.py:normal"]}
{"id": "C44", "title": "Cluster samplers return the requested number of points inside the hull and near their seeds", "statement": "cluster_poisson returns n_observations points per replication, all in the hull, split into n_seeds clusters whose sizes differ by at most one and whose members are within the cluster radius of their seed.", "quantifier": "all hulls, sizes, seeds, radii and random streams for which the sampler returns", "why_tests_cant": "Randomness and integer division.", "anchors": ["pointpats/random.py:cluster_poisson", "pointpats/random.py:_uniform_circle"]}
{"id": "C45", "title": "Replications of cluster_normal do not influence one another", "statement": "Every replication of cluster_normal with default covariance derives its cluster covariance from its own seeds.", "quantifier": "all sizes and streams", "why_tests_cant": "State leak between loop iterations.", "anchors": ["pointpats/random.py:cluster_normal"]}
{"id": "C46", "title": "strauss returns exactly the requested number of points inside the hull or raises", "statement": "Whenever strauss returns, every replication has exactly n_observations points inside the hull; otherwise it raises RuntimeError; it never loops forever.", "quantifier": "all hulls, parameters and random streams", "why_tests_cant": "Random number of births and deaths.", "anchors": ["pointpats/random.py:strauss"]}
{"id": "C47", "title": "strauss with gamma = 0 is a hard core process", "statement": "With gamma = 0 the result has no two points within the inhibition radius.", "quantifier": "all random streams", "why_tests_cant": "Randomness.", "anchors": ["pointpats/random.py:strauss"]}
{"id": "C48", "title": "Rectangular quadrat counts add up to the number of points", "statement": "For every pattern with positive extent in x and y and every positive cell count or cell size, RectangleM assigns every point to exactly one cell id in 0..rows*columns-1; the counts add up to n.", "quantifier": "all point sets with positive extents, all positive cell counts or sizes", "why_tests_cant": "Boundary points and rounding of the cell grid; infinite family.", "anchors": ["pointpats/quadrat_statistics.py:RectangleM.point_location_sta"]}
{"id": "C49", "title": "Each rectangular quadrat counts the points in its rectangle", "statement": "The count reported for a cell equals the number of points in its half-open rectangle (closed at the upper/right end of the grid).", "quantifier": "all point sets and grids", "why_tests_cant": "As above.", "anchors": ["pointpats/quadrat_statistics.py:RectangleM"]}
{"id": "C50", "title": "Degenerate patterns are rejected or counted by the rectangular grid", "statement": "RectangleM counts all points also if all points share an x or a y coordinate.", "quantifier": "all collinear patterns", "why_tests_cant": "Corner of the input space.", "anchors": ["pointpats/quadrat_statistics.py:RectangleM"]}
{"id": "C51", "title": "Hexagonal quadrat counts add up to the number of points", "statement": "HexagonM assigns every point to one hexagon of its grid; the counts add up to n.", "quantifier": "all point sets and cell sizes", "why_tests_cant": "Boundary coincidences of irrational geometry; infinite family.", "anchors": ["pointpats/quadrat_statistics.py:HexagonM.point_location_sta"]}
{"id": "C52", "title": "Each point is assigned to a hexagon containing it", "statement": "The hexagon whose count is increased contains the point (closed hexagon).", "quantifier": "all point sets and cell sizes", "why_tests_cant": "As above.", "anchors": ["pointpats/quadrat_statistics.py:HexagonM.point_location_sta"]}
{"id": "C53", "title": "HexagonM.num is the number of hexagons", "statement": "The reported number of quadrats equals the number of cells in the grid.", "quantifier": "all grids, odd and even numbers of columns", "why_tests_cant": "Parity dependent formula.", "anchors": ["pointpats/quadrat_statistics.py:HexagonM.__init__"]}
{"id": "C54", "title": "The quadrat chi-square statistic is sound", "statement": "chi2 is the sum of its per-cell contributions, non-negative, zero exactly for equal counts, at most n(k-1), df = k-1; it is unchanged by relabelling the cells.", "quantifier": "all count vectors with positive total", "why_tests_cant": "Algebra over arbitrary length vectors.", "anchors": ["pointpats/quadrat_statistics.py:QStatistic"]}
{"id": "C55", "title": "Simulation p-values of QStatistic are valid", "statement": "chi2_r_pvalue is a multiple of 1/(realizations+1) in [1/(realizations+1), 1], does not depend on the order of realisations, and decreases as the observed statistic grows; every realizations >= 1 is accepted.", "quantifier": "all realisations and observed values", "why_tests_cant": "Randomness; corner value 1.", "anchors": ["pointpats/quadrat_statistics.py:QStatistic"]}
{"id": "C56", "title": "The support of a distance statistic is well formed", "statement": "An integer support gives that many equally spaced distances from 0 to the maximum observed distance; tuples give (stop), (start, stop) or (start, stop, num) as documented; any edge correction raises NotImplementedError. Tuples of another length are used like arrays by g and rejected by k and l; g rejects supports that are not in order.", "quantifier": "all support arguments", "why_tests_cant": "Decision table.", "anchors": ["pointpats/distance_statistics.py:_prepare"]}
{"id": "C57", "title": "G is a distribution function of nearest neighbour distances", "statement": "g(points, support) starts at 0, is non-decreasing, within [0,1] and ends at 1; its value at support d is the share of events with nearest neighbour distance < d (<= d at the last support) among events whose distance falls within the support.", "quantifier": "all point sets and increasing supports that cover at least one distance", "why_tests_cant": "Universal over point sets and supports.", "anchors": ["pointpats/distance_statistics.py:g"]}
{"id": "C58", "title": "F is a distribution function of empty-space distances", "statement": "As for G with the distances from random locations to the nearest event.", "quantifier": "all point sets, supports and random locations", "why_tests_cant": "Randomness.", "anchors": ["pointpats/distance_statistics.py:f"]}
{"id": "C59", "title": "G and F report the share of all events", "statement": "The value at distance d is the share of all events (locations) with distance at most d.", "quantifier": "all supports, including those shorter than the largest distance", "why_tests_cant": "Supports that do not cover the data.", "anchors": ["pointpats/distance_statistics.py:g", "pointpats/distance_statistics.py:f"]}
{"id": "C60", "title": "J is (1-G)/(1-F) wherever it is finite, and truncation only removes undefined values", "statement": "Every value of j(..., truncate=False) with F<1 is (1-G)/(1-F) at the same distance; with truncate=True the returned support and values are equal-length prefixes containing finite values only.", "quantifier": "all point sets and supports", "why_tests_cant": "Division by zero corners.", "anchors": ["pointpats/distance_statistics.py:j"]}
{"id": "C61", "title": "Ripley's K is the normalised pair count", "statement": "k(points, support)(d) = area/n^2 times the number of ordered pairs at distance < d; it is non-decreasing, zero at d = 0, at most area*(n-1)/n, invariant to the order of the points, and does not depend on whether distances are given as matrix, vector or computed.", "quantifier": "all point sets and supports", "why_tests_cant": "Universal.", "anchors": ["pointpats/distance_statistics.py:k"]}
{"id": "C62", "title": "L is the square-root transform of K", "statement": "l = sqrt(K/pi), minus d if linearized; non-negative before linearising and non-decreasing; the same truncation of invalid input as K.", "quantifier": "all point sets and supports", "why_tests_cant": "Universal.", "anchors": ["pointpats/distance_statistics.py:l"]}
{"id": "C63", "title": "Simulation p-values of the Ripley family are valid", "statement": "p-values returned by f_test, g_test, k_test, l_test lie in (0, 1] as Monte Carlo p-values (k+1)/(m+1).", "quantifier": "all observed patterns and simulations", "why_tests_cant": "Randomness.", "anchors": ["pointpats/distance_statistics.py:_ripley_test"]}
{"id": "C64", "title": "Simulation results do not depend on scheduling", "statement": "The p-values depend only on the multiset of simulated curves, not on the order in which the parallel workers deliver them.", "quantifier": "all orders of the simulations", "why_tests_cant": "Schedules.", "anchors": ["pointpats/distance_statistics.py:_ripley_test", "pointpats/distance_statistics.py:_run_one_ripley_simulation"]}
{"id": "C65", "title": "f_test and f use the same empty-space distances", "statement": "The statistic returned by f_test is computed from the distance of each empty-space location to its nearest event.", "quantifier": "all patterns and random locations", "why_tests_cant": "Depends on coincidences between indices.", "anchors": ["pointpats/distance_statistics.py:_ripley_test", "pointpats/distance_statistics.py:f"]}
{"id": "C66", "title": "The Knox statistic counts close pairs", "statement": "knox returns the number of unordered pairs of events within delta in space and tau in time, whatever order the index returns pairs in, and does not modify its inputs.", "quantifier": "all event sets and thresholds", "why_tests_cant": "Universal, side effects.", "anchors": ["pointpats/spacetime.py:knox"]}
{"id": "C67", "title": "Permutation p-values of the space-time tests are valid", "statement": "p-values of knox, mantel, jacquez and modified_knox lie in [1/(P+1), 1], are invariant to the order of permutations, and equal 1 if all permuted statistics are as large as the observed one.", "quantifier": "all statistics and permutations", "why_tests_cant": "Randomness.", "anchors": ["pointpats/spacetime.py:knox", "pointpats/spacetime.py:mantel", "pointpats/spacetime.py:jacquez", "pointpats/spacetime.py:modified_knox"]}
{"id": "C68", "title": "Space-time statistics do not depend on the order of events", "statement": "Listing the events in another order gives the same knox, mantel, modified_knox statistic.", "quantifier": "all permutations", "why_tests_cant": "All permutations.", "anchors": ["pointpats/spacetime.py:knox", "pointpats/spacetime.py:mantel", "pointpats/spacetime.py:modified_knox"]}
{"id": "C69", "title": "Matrix shuffling is a relabelling", "statement": "_shuffle_matrix(X, ids) applies one permutation to rows and columns: symmetry, zero diagonal and the multiset of entries are preserved; shuffling by a permutation and then by its inverse restores X.", "quantifier": "all square matrices and permutations", "why_tests_cant": "All permutations.", "anchors": ["pointpats/spacetime.py:_shuffle_matrix"]}
{"id": "C70", "title": "The Mantel statistic is a correlation", "statement": "mantel's statistic lies in [-1, 1] whenever the transformed distances and time differences are numbers and not constant, and is nan otherwise; it does not change under positive affine transforms of either distance matrix, and is symmetric in space and time.", "quantifier": "all event sets with non-constant distances, all parameters", "why_tests_cant": "Inequality over a continuum.", "anchors": ["pointpats/spacetime.py:mantel"]}
{"id": "C71", "title": "The Jacquez statistic counts shared nearest neighbours", "statement": "jacquez's statistic equals the number of ordered pairs (i,j) with j among the k nearest neighbours of i in space and in time; 0 <= statistic <= n*k.", "quantifier": "all event sets", "why_tests_cant": "Universal.", "anchors": ["pointpats/spacetime.py:jacquez"]}
{"id": "C72", "title": "modified_knox subtracts the expected count", "statement": "The statistic is the Knox count minus the expectation (sum over events of space neighbours times time neighbours)/(n-1)/2.", "quantifier": "all event sets with n >= 2", "why_tests_cant": "Identity.", "anchors": ["pointpats/spacetime.py:modified_knox"]}
{"id": "C73", "title": "Knox contingency tables are consistent", "statement": "The observed and expected 2x2 tables of Knox have the same margins NS and NT, all observed cells are non-negative, all cells add up to n(n-1)/2; NST <= min(NS, NT).", "quantifier": "all event sets and thresholds", "why_tests_cant": "Universal.", "anchors": ["pointpats/spacetime.py:_knox"]}
{"id": "C74", "title": "Knox counts neighbours of every event once per pair", "statement": "NS, NT and NST are integers: the number of unordered pairs of distinct events close in space, in time, and in both; st_pairs lists each such pair exactly once; they grow with delta and tau and agree with the function knox.", "quantifier": "all event sets and thresholds", "why_tests_cant": "Universal.", "anchors": ["pointpats/spacetime.py:_knox", "pointpats/spacetime.py:Knox"]}
{"id": "C75", "title": "Knox permutation inference relabels time", "statement": "Each permuted statistic equals the Knox count after assigning the time stamps to events in permuted order; the pseudo p-value is (number of permuted >= observed + 1)/(P+1) and lies in [1/(P+1),1].", "quantifier": "all permutations", "why_tests_cant": "Randomness.", "anchors": ["pointpats/spacetime.py:_knox"]}
{"id": "C76", "title": "Local Knox statistics decompose the global one", "statement": "nsti_i is the number of events close to i in space and time; the sum over i equals twice NST.", "quantifier": "all event sets", "why_tests_cant": "Double counting argument.", "anchors": ["pointpats/spacetime.py:_knox_local"]}
{"id": "C77", "title": "Conditional permutation keeps the focal event's time fixed", "statement": "In the local permutation inference for event i, the shuffled assignment is a permutation of all events that maps i to itself, so event i keeps its own time.", "quantifier": "all i and permutations", "why_tests_cant": "All permutations.", "anchors": ["pointpats/spacetime.py:_knox_local"]}
{"id": "C78", "title": "The adjacency list of the local Knox test is symmetric with opposite orientations", "statement": "For every pair close in space and time both directions are listed exactly once; one is lead and the other lag according to time, or both coincident.", "quantifier": "all event sets", "why_tests_cant": "Universal.", "anchors": ["pointpats/spacetime.py:_knox_local"]}
{"id": "C79", "title": "Hot spot clusters are the connected components of significant events", "statement": "hotspots() lists exactly the events with p-value <= crit, with their time, one event close to them in space and time, whether they are earlier (lead), later (lag) or at the same time (coincident), and the number of the connected component of the space-time graph they are in.", "quantifier": "all event sets and p-values", "why_tests_cant": "Graph connectivity over all graphs.", "anchors": ["pointpats/spacetime.py:KnoxLocal.hotspots"]}
{"id": "C80", "title": "Local p-values are valid", "statement": "p_sims lie in [1/(P+1), 1] for every event; events with no space-time neighbour have simulated p-value 1; the hypergeometric p-value of an event with no space-time neighbours is 1.", "quantifier": "all event sets and permutations", "why_tests_cant": "Randomness.", "anchors": ["pointpats/spacetime.py:_knox_local", "pointpats/spacetime.py:KnoxLocal"]}
{"id": "C81", "title": "The density grid covers the data", "statement": "plot_density evaluates the density on a grid of x_res by y_res equally spaced locations whose corners are the extent of the data widened by margin on each side; invalid resolution raises ValueError.", "quantifier": "all data and resolutions >= 2", "why_tests_cant": "Universal.", "anchors": ["pointpats/kde.py:plot_density"]}
{"id": "C82", "title": "The quadrat plot labels each cell with its own value", "statement": "In the counts plot the number written into each drawn rectangle or hexagon is the number of points counted in that cell, the rectangles drawn tile the bounding box; in the chi-square plot the value written into each cell is the chi-square contribution of that cell.", "quantifier": "all point sets, cell sizes and drawing orders", "why_tests_cant": "Universal over inputs; mislabelled cells still give a plausible picture.", "anchors": ["pointpats/quadrat_statistics.py:RectangleM.plot", "pointpats/quadrat_statistics.py:HexagonM.plot", "pointpats/quadrat_statistics.py:QStatistic.plot"]}
{"id": "C83", "title": "j_test returns its result", "statement": "j_test returns a result object for every valid input, with truncation as well as without; with truncation it is the untruncated result cut before the first value that is not finite.", "quantifier": "all patterns, supports and random streams", "why_tests_cant": "Whether something is cut depends on the data.", "anchors": ["pointpats/distance_statistics.py:j_test", "pointpats/distance_statistics.py:_truncate"]}
{"id": "C84", "title": "G from a distance matrix equals G from the coordinates", "statement": "g given the full matrix of distances between the events returns the same as g that computes the distances itself.", "quantifier": "all patterns and supports", "why_tests_cant": "Universal over patterns.", "anchors": ["pointpats/distance_statistics.py:g"]}
{"id": "C85", "title": "f_test draws its locations in the study region", "statement": "f_test draws its empty-space locations in the given hull, as f does.", "quantifier": "all patterns, hulls and random streams", "why_tests_cant": "Randomness and all regions.", "anchors": ["pointpats/distance_statistics.py:_ripley_test", "pointpats/distance_statistics.py:f_test"]}
{"id": "C86", "title": "k_test normalises by the study region", "statement": "The K function reported by k_test is normalised by the area of the given hull.", "quantifier": "all patterns and hulls", "why_tests_cant": "Universal over regions.", "anchors": ["pointpats/distance_statistics.py:k_test", "pointpats/distance_statistics.py:k"]}
{"id": "C87", "title": "j_test truncation cuts the simulated curves along with the support", "statement": "After truncation the simulated curves that j_test returns have as many values as the support, and none of the simulations is lost.", "quantifier": "all patterns, supports and simulations", "why_tests_cant": "Depends on the data where the cut is made.", "anchors": ["pointpats/distance_statistics.py:j_test", "pointpats/distance_statistics.py:_truncate"]}
{"id": "C88", "title": "The hot spot plot colours events by significance", "statement": "KnoxLocal.plot shows every event once: in the focal colour if its p-value is <= crit, else in the neighbour colour if it is a space-time neighbour of such an event, else in the colour of non-significant events; an unknown inference method raises ValueError.", "quantifier": "all event sets, p-values and critical values", "why_tests_cant": "The overwriting order of colours must be right for every graph.", "anchors": ["pointpats/spacetime.py:KnoxLocal.plot"]}
{"id": "C89", "title": "Data frame input of the Knox tests is equivalent to array input", "statement": "Knox.from_dataframe and KnoxLocal.from_dataframe use the coordinates and times of the rows in order and the index as labels; frames with geographic coordinates, geometries that are not points or a time column that is not numeric raise ValueError.", "quantifier": "all data frames", "why_tests_cant": "Universal over frames.", "anchors": ["pointpats/spacetime.py:Knox.from_dataframe", "pointpats/spacetime.py:KnoxLocal.from_dataframe", "pointpats/spacetime.py:_spacetime_points_to_arrays"]}
{"id": "C90", "title": "SpaceTimeEvents reads the shape file and its database", "statement": "SpaceTimeEvents holds the points of the shape file in order with the times of the column of its database; with infer_timestamp dates become days since the earliest.", "quantifier": "all shape files and columns", "why_tests_cant": "Depends on the file system.", "anchors": ["pointpats/spacetime.py:SpaceTimeEvents"]}
{"id": "C91", "title": "Rectangular quadrat counts add up in floating point arithmetic", "statement": "With all differences and quotients rounded to doubles, RectangleM.point_location_sta still returns a count for every cell 0..num-1, the counts add up to the number of points, no point raises KeyError, and the count of a cell is the number of points whose rounded offset from the bounding box corner lies in it.", "quantifier": "all patterns of positive extent, all cell sizes and all numbers of cells (up to 2^51 per direction)", "why_tests_cant": "Rounding of the cell size can push the largest coordinate past the last cell; only a proof over all doubles excludes it.", "anchors": ["pointpats/quadrat_statistics.py:RectangleM.__init__", "pointpats/quadrat_statistics.py:RectangleM.point_location_sta"]}
{"id": "C92", "title": "The rectangle drawn for a cell contains the points counted in it, in floating point arithmetic", "statement": "RectangleM.plot draws, for the cell in which a point is counted, a rectangle that contains the point.", "quantifier": "all patterns and grids, in double precision", "why_tests_cant": "Depends on the rounding of every coordinate.", "anchors": ["pointpats/quadrat_statistics.py:RectangleM._rect_cell_bounds", "pointpats/quadrat_statistics.py:RectangleM.plot"]}
{"id": "C93", "title": "mean_center in floating point arithmetic", "statement": "mean_center of the events lies in their bounding box and is their centre of mass up to a stated rounding error.", "quantifier": "all lists of events in double precision", "why_tests_cant": "Depends on the rounding of every partial sum.", "anchors": ["pointpats/centrography.py:mean_center"]}
{"id": "C94", "title": "std_distance is a number in floating point arithmetic", "statement": "std_distance returns a non-negative number (not nan) for every non-empty set of events, and its square is the mean squared distance from the mean center up to a stated rounding error.", "quantifier": "all lists of events in double precision", "why_tests_cant": "Cancellation makes the number under the root negative only for some inputs.", "anchors": ["pointpats/centrography.py:std_distance"]}
{"id": "C95", "title": "Rotated rectangle angles are below 90 in floating point arithmetic", "statement": "The angle minimum_rotated_rectangle reports is at least 0 and less than 90 and differs from the direction of an edge by a multiple of 90 degrees.", "quantifier": "all edge directions in double precision", "why_tests_cant": "Only directions within 1e-14 degrees below an axis are affected.", "anchors": ["pointpats/centrography.py:_get_mrr_angle"]}
{"id": "C96", "title": "Supports are sorted in floating point arithmetic", "statement": "A support given as (start, stop, number) has that many distances, starts at start, stops at stop and is in non-decreasing order, so that it is accepted as histogram edges.", "quantifier": "all pairs of doubles start <= stop and all numbers up to 2^50", "why_tests_cant": "Rounding of the step could push the last but one distance past stop.", "anchors": ["pointpats/distance_statistics.py:_prepare"]}
{"id": "C97", "title": "p-values are in range in floating point arithmetic", "statement": "The computed p-values (count+1)/(permutations+1) are positive, at most 1, equal to 1 only if every permutation is counted, and monotone in the count; the folded p-values of the distance functions are in [0, 1/2].", "quantifier": "all counts and numbers of permutations below 2^53", "why_tests_cant": "Rounding could merge values at the ends of the range.", "anchors": ["pointpats/spacetime.py:jacquez", "pointpats/spacetime.py:modified_knox", "pointpats/distance_statistics.py:_ripley_test"]}
{"id": "C98", "title": "The squared time threshold of knox is equivalent to the threshold in floating point arithmetic", "statement": "knox takes a pair to be close in time exactly if the absolute value of the computed time difference is at most the absolute value of tau, although it compares rounded squares.", "quantifier": "all doubles", "why_tests_cant": "Two neighbouring doubles could have the same rounded square.", "anchors": ["pointpats/spacetime.py:knox"]}
{"id": "C99", "title": "minimum_bounding_rectangle is the smallest enclosing rectangle", "statement": "For every non-empty set of events minimum_bounding_rectangle returns left, bottom, right and top of the smallest axis-parallel rectangle that contains the events, and for a GeoPandas object the rectangle of its coordinates; missing and empty geometries do not matter.", "quantifier": "all arrays of events and all GeoPandas objects", "why_tests_cant": "Has to hold for every arrangement of events and geometries.", "anchors": ["pointpats/centrography.py:minimum_bounding_rectangle"]}
{"id": "C100", "title": "The ellipse polygon of a GeoPandas object is the standard deviational ellipse", "statement": "The corners of the polygon ellipse returns for a GeoPandas object lie on the ellipse around the (weighted) mean center whose half axes are the reported axes in the directions of largest and smallest variance, at equally spaced parameters including the ends of the axes.", "quantifier": "all GeoPandas objects with at least three coordinates, all non-negative weights with a positive sum, both methods and all corrections", "why_tests_cant": "Depends on the angle, on the origin of the scaling and of the rotation, for every arrangement of events.", "anchors": ["pointpats/centrography.py:ellipse", "pointpats/centrography.py:mean_center", "pointpats/centrography.py:weighted_mean_center"]}
{"id": "C101", "title": "The bounding circle polygon of a GeoPandas object contains its events", "statement": "The polygon minimum_bounding_circle returns for a GeoPandas object contains every event and lies in the smallest enclosing circle.", "quantifier": "all sets of events with a convex hull, every number of segments", "why_tests_cant": "The polygon is inscribed in the circle; which events it misses depends on their directions.", "anchors": ["pointpats/centrography.py:minimum_bounding_circle"]}
{"id": "C102", "title": "Simulated patterns have as many points as the observed one", "statement": "The patterns the quadrat statistic simulates have as many points as the observed pattern, also after rounding: the size is recomputed from the floating point intensity and area of the window.", "quantifier": "all numbers of events up to 2^51 and all areas that are doubles", "why_tests_cant": "Only some pairs of a number of events and an area lose a point to rounding.", "anchors": ["pointpats/quadrat_statistics.py:QStatistic", "pointpats/random.py:PoissonPointProcess"]}
{"id": "C103", "title": "Simulated quadrat statistics use the quadrats of the observed pattern", "statement": "Every simulated chi-square statistic of QStatistic counts the simulated points in the quadrats in which the observed points were counted, so that it is comparable with the observed one and with the same degrees of freedom.", "quantifier": "all patterns, windows, shapes and sizes of quadrats, numbers of realizations and random draws", "why_tests_cant": "Whether the quadrats differ depends on the simulated points.", "anchors": ["pointpats/quadrat_statistics.py:QStatistic", "pointpats/quadrat_statistics.py:RectangleM", "pointpats/quadrat_statistics.py:HexagonM"]}
{"id": "C104", "title": "Permutation tests keep their level", "statement": "If the times of the events are exchangeable and the permutations of the test are drawn independently and uniformly, the p-value of the space-time interaction tests (the Knox class, knox, modified_knox, jacquez, mantel) is at most alpha with probability at most alpha.", "quantifier": "all events, coordinates, times, thresholds, numbers of neighbours, numbers of permutations and levels alpha", "why_tests_cant": "A statement about the distribution of the p-value over all permutations; a run only shows one value.", "anchors": ["pointpats/spacetime.py:Knox", "pointpats/spacetime.py:knox", "pointpats/spacetime.py:modified_knox", "pointpats/spacetime.py:jacquez", "pointpats/spacetime.py:mantel"]}
{"id": "C105", "title": "The local Knox test keeps its level", "statement": "If the times of the events are exchangeable, the simulated p-value KnoxLocal reports for an event is at most alpha with probability at most alpha, for each event, although all events share the same shuffles; so the expected number of events reported at level alpha is at most alpha times their number.", "quantifier": "all events, coordinates, times, thresholds, numbers of permutations, events and levels alpha", "why_tests_cant": "A statement about the distribution of the p-values over all permutations; a run only shows one value.", "anchors": ["pointpats/spacetime.py:KnoxLocal"]}
{"id": "C106", "title": "The simulated quadrat test keeps its level", "statement": "If the observed pattern and the simulated patterns are exchangeable (as under complete spatial randomness), the simulated p-value of QStatistic is at most alpha with probability at most alpha.", "quantifier": "all windows, shapes and sizes of quadrats, numbers of realizations, joint distributions of exchangeable patterns and levels alpha", "why_tests_cant": "A statement about the distribution of the p-value; a run only shows one value.", "anchors": ["pointpats/quadrat_statistics.py:QStatistic", "pointpats/quadrat_statistics.py:RectangleM", "pointpats/quadrat_statistics.py:HexagonM"]}
{"id": "C107", "title": "The simulated tests of the distance functions keep their level", "statement": "If the observed and the simulated curves of f_test, g_test, j_test, k_test or l_test are exchangeable, the p-value reported at a distance is at most alpha with probability at most alpha.", "quantifier": "all supports, distances, numbers of simulations, joint distributions of exchangeable curves and levels alpha", "why_tests_cant": "A statement about the distribution of the p-value; a run only shows one value.", "anchors": ["pointpats/distance_statistics.py:_ripley_test"]}
{"id": "C108", "title": "poisson draws independent points uniformly distributed on the hull", "statement": "If the draws of the generator are independent and uniform on [0, 1), poisson returns with probability one, and the points it returns are independent of each other, across replications too, and each uniformly distributed on the hull.", "quantifier": "all hulls of positive area, sizes, intensities, numbers of replications and sets of points", "why_tests_cant": "A statement about the distribution of the points; no finite number of runs settles it.", "anchors": ["pointpats/random.py:poisson"]}
{"id": "C109", "title": "PoissonPointProcess realisations are independent and uniform on the window", "statement": "If the draws of the generator are independent and uniform on [0, 1), the construction of a PoissonPointProcess ends with probability one, and the points of its realisations are independent of each other, within and between realisations, and uniformly distributed on the window, although surplus candidates are thrown away.", "quantifier": "all windows of positive area, numbers of points and realisations, with and without conditioning", "why_tests_cant": "A statement about the distribution of the points; no finite number of runs settles it.", "anchors": ["pointpats/process.py:PoissonPointProcess", "pointpats/process.py:PointProcess.draw"]}
{"id": "C110", "title": "Points sampled in a circle are independent and uniform", "statement": "If the draws of the generator are independent and uniform on [0, 1), runif_in_circle with a positive radius returns with probability one, and its points are independent and uniformly distributed on the disc; the points of cluster_poisson around a given seed are independent and uniform on the part of the hull in the disc.", "quantifier": "all numbers of points, radii, centres and hulls", "why_tests_cant": "A statement about the distribution of the points; no finite number of runs settles it.", "anchors": ["pointpats/process.py:runif_in_circle", "pointpats/random.py:_uniform_circle"]}
{"id": "C111", "title": "The lines of the hot spot plot connect every significant event with its neighbours", "statement": "With plot_edges, KnoxLocal.plot and KnoxLocal.explore draw a line between every significant event and every event close to it in space and time, and no other lines.", "quantifier": "all events, thresholds, numbers of permutations, labels, critical values and kinds of inference", "why_tests_cant": "The lines come from a table that is merged and grouped, so it must be checked for every neighbourhood structure.", "anchors": ["pointpats/spacetime.py:KnoxLocal.plot", "pointpats/spacetime.py:KnoxLocal.explore", "pointpats/spacetime.py:KnoxLocal.hotspots"]}
{"id": "C112", "title": "The hot spot plots use the colours asked for", "statement": "KnoxLocal.plot and KnoxLocal.explore draw every event, and only in the colour that the argument colors gives for its kind; explore shows with every event exactly its neighbours in space and time.", "quantifier": "all events, thresholds, labels, critical values and colours, equal ones too", "why_tests_cant": "Colours are compared as values to select layers, so all coincidences of colours matter.", "anchors": ["pointpats/spacetime.py:KnoxLocal.plot", "pointpats/spacetime.py:KnoxLocal.explore"]}
{"id": "C113", "title": "The centres of simulated clusters are spread over the hull by chance", "statement": "The centres of the clusters that cluster_poisson and cluster_normal simulate are uniformly distributed on the hull, and the centres of different replications are independent.", "quantifier": "all hulls, numbers of clusters from two on, sizes, radii, covariances and draws of the generator", "why_tests_cant": "This is a statement about the distribution of the result, which no finite number of runs shows.", "anchors": ["pointpats/random.py:cluster_poisson", "pointpats/random.py:cluster_normal"]}
{"id": "C114", "title": "The representation of a study region does not matter", "statement": "area, bbox, contains, centroid and the simulated points are the same when the same region is given as a bounding box array, as a ConvexHull or as a shapely polygon, and do not depend on the first vertex.", "quantifier": "all regions, points, sizes, intensities and draws of the generator", "why_tests_cant": "Every representation has its own code, so agreement must hold for all regions and all points.", "anchors": ["pointpats/geometry.py:area", "pointpats/geometry.py:bbox", "pointpats/geometry.py:contains", "pointpats/geometry.py:centroid", "pointpats/random.py:poisson"]}
{"id": "C115", "title": "The drawn hexagons tile the bounding box", "statement": "HexagonM.plot draws regular hexagons with the given side, centred at the cell centres, that do not overlap, and together they cover the bounding box of the events.", "quantifier": "all non-empty point patterns and all positive side lengths", "why_tests_cant": "The tiling must hold for every side length and every pattern; a test draws a few.", "anchors": ["pointpats/quadrat_statistics.py:HexagonM"]}
{"id": "C116", "title": "The drawn rectangles tile the bounding box", "statement": "RectangleM.plot draws rectangles of one size, the requested one if given, that do not overlap, and together they cover the bounding box of the events; with requested numbers of rows and columns they cover nothing else.", "quantifier": "all point patterns with positive extent, all cell sizes and all numbers of rows and columns", "why_tests_cant": "The tiling must hold for every size and every pattern; a test draws a few.", "anchors": ["pointpats/quadrat_statistics.py:RectangleM"]}
{"id": "C117", "title": "The form of the events does not matter to the centrographic measures", "statement": "mean_center, weighted_mean_center, manhattan_median, std_distance, euclidean_median and dtot give the same result for a list of pairs, an array and a GeoPandas object with the same coordinates; the weights given with a GeoPandas object are those of its rows; and dtot accepts a location returned by one of the others.", "quantifier": "all events, all ways to divide them into rows with missing, single and multiple points, all weights", "why_tests_cant": "GeoPandas objects can hold any mixture of missing, empty, single and multiple points, and a test only tries one.", "anchors": ["pointpats/centrography.py:mean_center", "pointpats/centrography.py:weighted_mean_center", "pointpats/centrography.py:manhattan_median", "pointpats/centrography.py:std_distance", "pointpats/centrography.py:euclidean_median", "pointpats/centrography.py:dtot"]}
{"id": "C118", "title": "The form of the events does not matter to the quadrat methods", "statement": "RectangleM, HexagonM and QStatistic give the same result for an array, a GeoPandas object and a PointPattern with the same coordinates; without a window QStatistic uses the bounding box; what is not a pattern of points is refused with an exception.", "quantifier": "all events, all ways to divide them into rows, all grids, windows, numbers of simulations and draws", "why_tests_cant": "The equivalence ranges over all patterns and all their representations.", "anchors": ["pointpats/quadrat_statistics.py:_as_points_array", "pointpats/quadrat_statistics.py:RectangleM", "pointpats/quadrat_statistics.py:HexagonM", "pointpats/quadrat_statistics.py:QStatistic"]}
{"id": "C119", "title": "Seeds make QStatistic reproducible", "statement": "With a seed QStatistic returns the same result whatever the program has done before, and leaves all other generators alone; with a Generator the result depends only on its state, and only that generator moves on; a RandomState is advanced by one number and acts as a seed; without a generator each call takes a new seed from the operating system and changes nothing else.", "quantifier": "all states of all generators, all seeds, patterns, grids, windows and numbers of simulations", "why_tests_cant": "It must hold for every history of the program.", "anchors": ["pointpats/quadrat_statistics.py:QStatistic", "pointpats/quadrat_statistics.py:_coerce_rng"]}
{"id": "C120", "title": "The outline of the window is drawn completely", "statement": "The quadrat plots draw every ring of every polygon of the window, holes and nested collections included, and nothing else.", "quantifier": "all windows, nested to any depth", "why_tests_cant": "Geometry collections nest without bound.", "anchors": ["pointpats/quadrat_statistics.py:_window_to_paths", "pointpats/quadrat_statistics.py:RectangleM", "pointpats/quadrat_statistics.py:HexagonM"]}
{"id": "C121", "title": "Realisations as point patterns are those as arrays", "statement": "A point process with asPP=True yields PointPattern objects with the points that asPP=False yields, in the same order, all with the window of the process.", "quantifier": "all windows, sizes, numbers of samples, random sizes and draws", "why_tests_cant": "Random sizes include zero, which a test rarely draws.", "anchors": ["pointpats/process.py:PointProcess", "pointpats/process.py:PoissonPointProcess"]}
{"id": "C122", "title": "The tests of the distance functions report those functions", "statement": "g_test, k_test and l_test report exactly the support and values that g, k and l return for the same arguments, with one p-value for every value, and as many simulated curves as asked for.", "quantifier": "all patterns, supports, distances, metrics, hulls, numbers of simulations and draws", "why_tests_cant": "The equality must hold for every argument and every random stream.", "anchors": ["pointpats/distance_statistics.py:g_test", "pointpats/distance_statistics.py:k_test", "pointpats/distance_statistics.py:l_test"]}
{"id": "C123", "title": "Random numbers are used in order and each at most once", "statement": "Every sampler and simulated test takes consecutive numbers from its generator and nothing else: two generators that continue with the same numbers give the same result and are left at the same place, whatever they gave before; what the generator gives later does not matter, so successive calls and replications never share a number.", "quantifier": "all hulls, sizes, parameters, streams of random numbers and starting positions", "why_tests_cant": "The number of numbers used is unbounded and depends on rejections; a test fixes a seed and a starting position.", "anchors": ["pointpats/random.py:poisson", "pointpats/random.py:normal", "pointpats/random.py:cluster_poisson", "pointpats/random.py:cluster_normal", "pointpats/random.py:strauss", "pointpats/process.py:PoissonPointProcess", "pointpats/process.py:PoissonClusterPointProcess", "pointpats/process.py:runif_in_circle", "pointpats/quadrat_statistics.py:QStatistic", "pointpats/distance_statistics.py:f", "pointpats/distance_statistics.py:j", "pointpats/distance_statistics.py:_ripley_test"]}
{"id": "C124", "title": "Quadrat analysis does not depend on the units, the origin or the order of the events", "statement": "Moving the origin and rescaling the axes of the points, the cell size and the window (both axes alike for hexagons) changes no cell count and, with the same random numbers, nothing in the whole quadrat test: ids, statistic, degrees of freedom, contributions, simulated statistics and p-value are the same, or the same exception is raised. Listing the points in another order changes nothing either.", "quantifier": "all points, grids, cell sizes, positive scale factors, shifts, windows, streams of random numbers and permutations", "why_tests_cant": "A test compares one pattern in one unit; absolute tolerances or forgotten offsets show only for particular scales and positions.", "anchors": ["pointpats/quadrat_statistics.py:RectangleM", "pointpats/quadrat_statistics.py:HexagonM", "pointpats/quadrat_statistics.py:QStatistic"]}
{"id": "C125", "title": "Centrographic measures move with the pattern", "statement": "Under every similarity of the plane (shift, turn, reflection, rescaling) the mean centre, weighted mean centre, and Euclidean medians are the images of the old ones, the standard distance and total distance are multiplied by the scale factor, and the axes of the standard deviational ellipse are multiplied by it while its direction turns or is reflected with the pattern. The Manhattan median follows shifts, axis-wise rescaling, reflections and exchange of the axes only. The order of the events does not matter.", "quantifier": "all patterns, weights, similarities, ellipse methods and permutations", "why_tests_cant": "The claim compares the results on two patterns related by an arbitrary real motion; a test fixes both.", "anchors": ["pointpats/centrography.py:mean_center", "pointpats/centrography.py:weighted_mean_center", "pointpats/centrography.py:manhattan_median", "pointpats/centrography.py:std_distance", "pointpats/centrography.py:euclidean_median", "pointpats/centrography.py:dtot", "pointpats/centrography.py:ellipse", "pointpats/centrography.py:minimum_bounding_rectangle"]}
{"id": "C126", "title": "The distance functions and their tests do not depend on the units or the origin", "statement": "When the origin is moved and lengths are multiplied by r > 0 (events, support, given distances and hull alike), F, G and J keep their values at the converted support, K is multiplied by r squared and L by r; with the same random numbers the five tests give the same p-values, and the other parts of the result are converted. Exceptions are the same.", "quantifier": "all patterns of at least two events, supports, distances, hulls, metrics that follow the change of units, streams of random numbers and numbers of simulations", "why_tests_cant": "A test compares one pattern in one unit; absolute tolerances or a forgotten offset show only for particular scales and positions.", "anchors": ["pointpats/distance_statistics.py:f", "pointpats/distance_statistics.py:g", "pointpats/distance_statistics.py:j", "pointpats/distance_statistics.py:k", "pointpats/distance_statistics.py:l", "pointpats/distance_statistics.py:_ripley_test", "pointpats/distance_statistics.py:_prepare"]}
{"id": "C127", "title": "The order of the events does not matter to the distance functions and their tests", "statement": "Listing the events in another order changes neither F, G, J, K, L nor, with the same random numbers, the results of their tests.", "quantifier": "all patterns of at least two events, permutations, supports, symmetric metrics, hulls and streams of random numbers", "why_tests_cant": "There are factorially many orders and the dependence may show in one value of the statistic only.", "anchors": ["pointpats/distance_statistics.py:f", "pointpats/distance_statistics.py:g", "pointpats/distance_statistics.py:j", "pointpats/distance_statistics.py:k", "pointpats/distance_statistics.py:l", "pointpats/distance_statistics.py:_ripley_test", "pointpats/geometry.py:k_neighbors"]}
{"id": "C128", "title": "Turning or reflecting the study area does not change the distance functions", "statement": "A motion of the plane that keeps all distances leaves G and K as they are.", "quantifier": "all patterns, motions that keep the metric, supports", "why_tests_cant": "The claim compares two patterns related by an arbitrary motion; axis-aligned examples hide the dependence on the axes.", "anchors": ["pointpats/distance_statistics.py:g", "pointpats/distance_statistics.py:k", "pointpats/geometry.py:area"]}
{"id": "C129", "title": "The tests of space-time interaction do not depend on the units or the origins", "statement": "If locations are rescaled, moved, turned or mirrored and times are rescaled, moved or reversed, and the thresholds (and, for mantel, the added constants) are converted accordingly, then knox, modified_knox, jacquez, mantel, Knox and KnoxLocal give the same statistics, tables and p-values for the same permutations; KnoxLocal exchanges lead and lag if time is reversed. With exponents of one the constants of mantel do not matter; with the default exponents they do.", "quantifier": "all events, similarities of the plane, affine changes of time, thresholds, constants, permutations and answers of the index", "why_tests_cant": "A test compares a few conversions; a tolerance or a constant in fixed units shows only at other scales.", "anchors": ["pointpats/spacetime.py:knox", "pointpats/spacetime.py:mantel", "pointpats/spacetime.py:jacquez", "pointpats/spacetime.py:modified_knox", "pointpats/spacetime.py:Knox", "pointpats/spacetime.py:KnoxLocal"]}
{"id": "C130", "title": "The bounding circle and the rotated rectangle move along with the events", "statement": "minimum_bounding_circle depends only on which places have events: not on the order of the events, on how often a place is listed, on the vertex the hull begins with or on whether numba is installed. If the events are turned, reflected, moved or given in another unit, the centre moves along and the radius is in the new unit; the rectangle of minimum_rotated_rectangle moves along and its angle grows by the rotation, modulo a right angle.", "quantifier": "all events, similarities of the plane, hulls that list the vertices from any of them, with and without numba", "why_tests_cant": "A test compares a few patterns in one position; a tolerance in fixed units or a dependence on the axes shows only at other scales and directions.", "anchors": ["pointpats/centrography.py:minimum_bounding_circle", "pointpats/centrography.py:_circle", "pointpats/centrography.py:_skyum_lists", "pointpats/centrography.py:_skyum_numba", "pointpats/centrography.py:minimum_rotated_rectangle", "pointpats/centrography.py:_get_mrr_angle"]}
{"id": "C131", "title": "The attributes of a point pattern do not depend on units, position or order", "statement": "When the events of a PointPattern are given in another unit and from another origin, every attribute computed from them is the same except for the conversion: n stays, lengths (rot, nnd, min_nnd, mean_nnd, max_nnd) are multiplied by the factor, areas by its square, intensities divided by its square, mbb and hull are moved; lambda_window likewise for the default window. Rotations and reflections leave n, hull_area, lambda_hull and the nearest neighbour distances as they are, but not mbb, rot and lambda_mbb. The order of the events does not matter.", "quantifier": "all patterns, units, origins, rotations, reflections, orders, and histories of operations on both patterns", "why_tests_cant": "It compares two patterns related by an arbitrary motion or permutation, each with its own history of cached reads.", "anchors": ["pointpats/pointpattern.py:PointPattern.mbb", "pointpats/pointpattern.py:PointPattern.rot", "pointpats/pointpattern.py:PointPattern.lambda_mbb", "pointpats/pointpattern.py:PointPattern.hull_area", "pointpats/pointpattern.py:PointPattern.lambda_hull", "pointpats/pointpattern.py:PointPattern.lambda_window", "pointpats/pointpattern.py:PointPattern.nnd"]}
{"id": "C132", "title": "Simulated patterns do not depend on the units or the origin", "statement": "When the hull is given in another unit of length and from another origin, the lengths, areas, intensities and covariances in the arguments are converted, and the generator delivers the same numbers, then poisson, normal, cluster_poisson and cluster_normal return the converted points, raise the same exception or run on in the same cases; so do runif_in_circle and PoissonPointProcess. strauss should, too.", "quantifier": "all hulls, sizes, intensities, covariances, radii, seeds, draws, units and origins", "why_tests_cant": "It relates two runs of rejection samplers of unbounded length, in units related by any factor, for every sequence of random numbers.", "anchors": ["pointpats/random.py:poisson", "pointpats/random.py:normal", "pointpats/random.py:cluster_poisson", "pointpats/random.py:cluster_normal", "pointpats/random.py:strauss", "pointpats/process.py:runif_in_circle", "pointpats/process.py:PoissonPointProcess"]}
{"id": "C133", "title": "The cluster samplers fail only on unusable arguments, and say so", "statement": "On a hull that has an area, with at least two seeds and usable radii or covariances, cluster_poisson and cluster_normal never raise an exception if every replication has at least as many points as seeds, and always end with the exception about too many clusters if it has fewer. The wrong number of radii, radii in a container that is not an array, no seeds and one seed always end with an exception, whose type depends on the arguments only, except for one point around one seed of cluster_poisson.", "quantifier": "all hulls with an area, sizes, numbers of seeds, radii, covariances and random streams", "why_tests_cant": "It excludes every exception in every iteration of nested rejection loops, for every stream of random numbers.", "anchors": ["pointpats/random.py:cluster_poisson", "pointpats/random.py:cluster_normal"]}
{"id": "C134", "title": "Places and times of different number are refused", "statement": "Every test of space-time interaction that is given a different number of places and times raises an exception instead of returning a statistic, and KnoxLocal refuses a wrong number of labels, and places or times that are not NumPy arrays.", "quantifier": "all places, times, labels, thresholds, constants, neighbour lists and permutations", "why_tests_cant": "The silent cases depend on which array is longer and on which places are close; a test tries one pair of lengths.", "anchors": ["pointpats/spacetime.py:knox", "pointpats/spacetime.py:mantel", "pointpats/spacetime.py:jacquez", "pointpats/spacetime.py:modified_knox", "pointpats/spacetime.py:Knox", "pointpats/spacetime.py:KnoxLocal"]}
{"id": "C135", "title": "Precomputed distances of another shape are refused", "statement": "Distances handed to g (and as the first of the pair to j) must be an array of shape (n,) or (n, n), those handed to f (and as the second to j) of shape (p,) or (n, p), those handed to k and l of shape (n(n-1)/2,) or (n, n). Fitting arrays are used; with any other array the function raises a ValueError, and neither the function nor its test returns a result.", "quantifier": "all events (at least one), all arrays of one or two dimensions, all supports, metrics, hulls and generators", "why_tests_cant": "The check compares three lengths, one of them computed from the number of events; a test tries one wrong shape for one number of events.", "anchors": ["pointpats/distance_statistics.py:f", "pointpats/distance_statistics.py:g", "pointpats/distance_statistics.py:j", "pointpats/distance_statistics.py:k", "pointpats/distance_statistics.py:l", "pointpats/distance_statistics.py:_ripley_test"]}
{"id": "C136", "title": "Unusable quadrat grids are refused", "statement": "The rectangular counts are returned exactly when the points have an extent in both directions and the cell sides (or else the numbers of columns and rows) are positive; every other rectangular grid, a hexagon side that is not positive, a pattern without points and an unknown shape raise an exception.", "quantifier": "all patterns, numbers of columns and rows (also zero and negative), cell sides, hexagon sides, shapes, numbers of realizations and generators", "why_tests_cant": "What happens depends on the signs of four arguments and on the extent of the pattern; a test tries a few combinations.", "anchors": ["pointpats/quadrat_statistics.py:RectangleM", "pointpats/quadrat_statistics.py:HexagonM", "pointpats/quadrat_statistics.py:QStatistic"]}
{"id": "C137", "title": "The form and the order of the events do not matter to hulls, rectangles, ellipses and circles", "statement": "hull, minimum_bounding_rectangle, minimum_rotated_rectangle, ellipse and minimum_bounding_circle describe the same shape for a list of pairs, an array and a GeoPandas object with the same coordinates, however they are divided into rows; hull returns the same corners in the same cyclic order whatever the order of the events and their repetitions.", "quantifier": "all events with a convex hull, all orders, all ways to divide them into rows", "why_tests_cant": "The equivalence ranges over all patterns and all their representations; a test compares two of them.", "anchors": ["pointpats/centrography.py:hull", "pointpats/centrography.py:minimum_bounding_rectangle", "pointpats/centrography.py:minimum_rotated_rectangle", "pointpats/centrography.py:ellipse", "pointpats/centrography.py:minimum_bounding_circle"]}
{"id": "C138", "title": "The neighbours listed by knn and knn_other are events", "statement": "Every neighbour that knn(k) or knn_other(other, k) lists is an event of the pattern: its id is the position of an event and the distance beside it is the distance to that event, a number; if there are not k neighbours, the call says so.", "quantifier": "all point patterns, all k from 1 on, all correct answers of the spatial index", "why_tests_cant": "Tests ask for few neighbours in patterns with many events; the case k >= n is a boundary of every pattern.", "anchors": ["pointpats/pointpattern.py:PointPattern.knn", "pointpats/pointpattern.py:PointPattern.knn_other", "pointpats/pointpattern.py:PointPattern.nnd"]}
{"id": "C139", "title": "Centrographic measures that have no meaning are reported as nan, not as numbers", "statement": "mean_center, manhattan_median and std_distance are numbers exactly if there is an event, weighted_mean_center exactly if the weights do not sum to zero, and the axes of ellipse exactly if there are three events or the chosen method does not correct for the degrees of freedom; otherwise the result is nan or infinite, or an error is raised.", "quantifier": "all arrays of events including empty ones, all weights including those that sum to zero, all ellipse methods and options", "why_tests_cant": "Tests use patterns with a dozen events and positive weights; undefined values only arise on empty and tiny patterns, where a plausible number would go unnoticed.", "anchors": ["pointpats/centrography.py:mean_center", "pointpats/centrography.py:weighted_mean_center", "pointpats/centrography.py:manhattan_median", "pointpats/centrography.py:std_distance", "pointpats/centrography.py:ellipse"]}
{"id": "C140", "title": "Functions that report the same quantity agree", "statement": "The number of pairs within a distance is the same whichever function reports it: the length of find_pairs(r), the number NS of the Knox test with delta = r, and n * lambda_mbb * k(r) / 2. The distances reported by nnd are those g works with.", "quantifier": "all patterns, distances and correct answers of the spatial indexes", "why_tests_cant": "Each function is tested on its own with distances that do not occur in the data; the boundary, where a pair is exactly as far apart as asked for, decides whether they agree.", "anchors": ["pointpats/pointpattern.py:PointPattern.find_pairs", "pointpats/pointpattern.py:PointPattern.nnd", "pointpats/spacetime.py:Knox", "pointpats/distance_statistics.py:k", "pointpats/distance_statistics.py:g"]}
{"id": "C141", "title": "Events that all happen at the same time or place show no interaction", "statement": "If all events have the same time, or the same location, rearranging the times changes nothing that a test of space-time interaction looks at; the permutation p-values of Knox, KnoxLocal (for every event), knox, modified_knox, jacquez and mantel are then 1.", "quantifier": "all sets of events with equal times or equal locations, thresholds and permutations", "why_tests_cant": "Test data always vary in space and time; that no interaction is found where there can be none has to hold for all such data and all permutations.", "anchors": ["pointpats/spacetime.py:Knox", "pointpats/spacetime.py:KnoxLocal", "pointpats/spacetime.py:knox", "pointpats/spacetime.py:modified_knox", "pointpats/spacetime.py:jacquez", "pointpats/spacetime.py:mantel"]}
{"id": "C142", "title": "The moves of the Strauss sampler satisfy detailed balance", "statement": "Let beta be the requested intensity. For every pattern x with at least the requested number of points and every further point p, the Strauss density beta^|x| gamma^(close pairs of x) times the probability density of moving from x to x with p equals the density at x with p times the probability of moving back, so that the Strauss process is the stationary distribution of the iterations of strauss.", "quantifier": "all hulls, numbers of points, gamma > 0, radii, patterns, new points and draws", "why_tests_cant": "Tests check numbers of points of single runs; the balance of the acceptance probabilities concerns every pair of patterns.", "anchors": ["pointpats/random.py:strauss", "pointpats/random.py:_pairwise_count_kdtree"]}
{"id": "C143", "title": "Without interaction the Strauss sampler ignores the radius", "statement": "With gamma = 1 the patterns returned by strauss, or the exceptions it raises, are the same for every r, given the same random numbers.", "quantifier": "all hulls, sizes, intensities, radii, numbers of iterations and streams of draws", "why_tests_cant": "A test compares two radii for one seed; the claim is about all of them.", "anchors": ["pointpats/random.py:strauss"]}
{"id": "C144", "title": "Without interaction the Strauss sampler returns independent uniform points", "statement": "With gamma = 1 the points that strauss returns are independent of each other and uniformly distributed on the hull, given that it returns: the probability that it returns with its points in given sets is the probability that it returns times the product of the shares of the hull's area in these sets. On boxes with sufficiently large initial patterns it returns with probability one.", "quantifier": "all probability spaces with independent uniform draws, hulls of positive area, sizes, radii, numbers of iterations and attempts, and measurable sets", "why_tests_cant": "A test of a distribution can only compare a finite sample with some tolerance; the joint distribution of all points after any number of births and deaths is not observable.", "anchors": ["pointpats/random.py:strauss", "pointpats/random.py:poisson"]}
{"id": "C145", "title": "PointPattern accepts exactly the tables whose columns can be named", "statement": "PointPattern refuses with a ValueError a table for which the number of coordinate names is not two, or the number of names is not the number of columns, and with a KeyError coordinate names that are not among the names; it accepts every other table with at least one row, and its points are then the entries of the columns asked for, row by row. Without names, the columns are named after the coordinates (x and y unless asked otherwise) and mark_0, mark_1, and so on.", "quantifier": "every table, with every combination of names, coordinate names and window", "why_tests_cant": "a test tries a few tables; the claim is about every number of columns and every list of names", "anchors": ["pointpats/pointpattern.py:PointPattern.__init__"]}
{"id": "C146", "title": "lambda_window leaves out the holes of the window", "statement": "For a window of several parts with holes, pp.lambda_window is the number of points divided by the area of what the window covers, without the holes, whatever the direction and the first vertex of its rings; passing the window through as_window changes nothing.", "quantifier": "every pattern and every window of boxes with holes that are boxes, in any number", "why_tests_cant": "a test computes the area of a few polygons; the claim is about any number of parts and holes", "anchors": ["pointpats/window.py:Window", "pointpats/window.py:as_window", "pointpats/pointpattern.py:PointPattern.lambda_window"]}
{"id": "C147", "title": "Patterns simulated one after the other are independent", "statement": "If the numbers of the generator are independent with a common distribution, the probability that any calls of the samplers (poisson, normal, cluster_poisson, cluster_normal, strauss) made one after the other with this generator return arrays in given sets is the product of the probabilities for each call made alone with a new generator. A call has at most one outcome.", "quantifier": "every list of calls with any arguments, every event for each of them, every place in the stream of the generator", "why_tests_cant": "independence is a statement about the joint distribution; a test sees a few draws, and the number of draws a call takes is itself random", "anchors": ["pointpats/random.py:poisson", "pointpats/random.py:normal", "pointpats/random.py:cluster_poisson", "pointpats/random.py:cluster_normal", "pointpats/random.py:strauss"]}
{"id": "C148", "title": "The points of cluster_poisson are uniform round their centres", "statement": "If the numbers of the generator are independent and uniform, then, given the centres, the other points of all clusters and all replications of cluster_poisson are independent, and each is uniformly distributed on the part of the hull within the radius of its centre. The integers from which the generators of the centres are made are independent and equally likely from 0 to 99999.", "quantifier": "every hull that meets the discs in a set of positive area, every size, at least two centres, every way of giving the radius", "why_tests_cant": "a test sees a few draws; the claim is about the joint distribution of all points", "anchors": ["pointpats/random.py:cluster_poisson", "pointpats/random.py:_uniform_circle"]}
{"id": "C149", "title": "The points of normal have the requested normal distribution, given the hull", "statement": "If the numbers of the generator are independent standard normal numbers, the points of all replications of normal are independent, and each has the bivariate normal distribution with the given centre (the centroid of the hull if none is given) as its mean and the requested covariance matrix, conditioned on the hull. If the determinant of the matrix and the area of the hull are positive, the call returns with probability one.", "quantifier": "every hull, every size, the covariance given by a number, not at all, by a matrix, or by one matrix per replication, each matrix with equal variances or zero covariance (others fail, see C43)", "why_tests_cant": "a test sees a few draws; the claim is about the joint distribution of all points", "anchors": ["pointpats/random.py:normal"]}
{"id": "C150", "title": "The simulated quadrat test keeps its level for completely random events", "statement": "If the events are independent and uniform on the window, and the numbers of the generator are independent, uniform and independent of the events, the simulated p-value of QStatistic is at most alpha with probability at most alpha. With at least two events, at least two simulations, a window of positive area and rectangles given by their numbers of columns and rows, a p-value is reported with probability one.", "quantifier": "every window, every number of events and simulations, every level, the quadrats given by numbers of columns and rows or by the side of the hexagons (other grids depend on the observed events, see C144)", "why_tests_cant": "the claim is about the distribution of the p-value over all draws of the generator; a test sees a few seeds", "anchors": ["pointpats/quadrat_statistics.py:QStatistic", "pointpats/random.py:poisson"]}
{"id": "C151", "title": "g_test, k_test and l_test keep the level of each tail for completely random events", "statement": "If the events are independent and uniform on the given hull, the generators of the simulations are independent of each other and of the events, and the distances are given, then at every distance and for every alpha: with probability at most alpha, one plus the number of simulated curves at least as large as the observed value is at most alpha times one plus the number of simulations. The same holds for the curves at most as large. The reported two-sided p-value of an observed number that no simulated curve ties is at most alpha with probability at most 2 alpha + 1 / (simulations + 1). With two or more events and increasing distances the tests return with probability one.", "quantifier": "every hull given as a box or a geometry, every number of events and simulations, every distance, every level, every measurable metric, with and without linearization", "why_tests_cant": "the claim is about the distribution of the p-value over all draws of the generator; a test sees a few seeds", "anchors": ["pointpats/distance_statistics.py:_ripley_test", "pointpats/distance_statistics.py:g_test", "pointpats/distance_statistics.py:k_test", "pointpats/distance_statistics.py:l_test", "pointpats/random.py:poisson"]}
{"id": "C152", "title": "The tests of the Ripley family do not report significance where the curve has no value", "statement": "At a distance where the observed curve is nan, f_test, g_test, j_test, k_test and l_test do not report a small p-value.", "quantifier": "all patterns, distances, numbers of simulations and results of the generators", "why_tests_cant": "the curve is nan only for unusual supports or patterns, and the p-value then depends on the number of simulations", "anchors": ["pointpats/distance_statistics.py:_ripley_test", "pointpats/distance_statistics.py:g_test"]}
{"id": "C153", "title": "The space-time permutation tests keep their level for random events without interaction", "statement": "If the joint distribution of the events stays the same when the times are given to the locations in another order (as it does if the times are independent, identically distributed and independent of the locations), and the shuffles are uniformly distributed whatever the events, then the p-values of Knox, KnoxLocal (for each event), modified_knox and jacquez are at most alpha with probability at most alpha.", "quantifier": "every distribution of the events without interaction, every number of events and permutations, all thresholds, every level", "why_tests_cant": "the claim is about the distribution of the p-value over random events and all draws of the generator; a test sees a few data sets and seeds", "anchors": ["pointpats/spacetime.py:Knox", "pointpats/spacetime.py:KnoxLocal", "pointpats/spacetime.py:modified_knox", "pointpats/spacetime.py:jacquez"]}
{"id": "C154", "title": "The plots of a QStatistic show its counts and the contributions that add up to its statistic", "statement": "For a QStatistic, with or without simulations, plot(show='counts') draws every cell of its grid with the number of events in it, and plot(show='chi2') draws the same cells with the contribution of each to the statistic; the numbers drawn add up to the attribute chi2. The grids write given contributions into their cells in order and raise ValueError if they are missing or not one for each cell. Any other value of show raises ValueError.", "quantifier": "all point sets, rectangular and hexagonal cells of all sizes, numbers of simulations and results of the generator, all lists of contributions", "why_tests_cant": "whether the drawn labels belong to their cells depends on two orders of the cells agreeing for every grid; a test looks at a few pictures", "anchors": ["pointpats/quadrat_statistics.py:QStatistic.plot", "pointpats/quadrat_statistics.py:RectangleM.plot", "pointpats/quadrat_statistics.py:HexagonM.plot"]}
{"id": "C155", "title": "The tests of the Ripley family accept every pattern that their functions accept", "statement": "If g, k or l returns the curve of a pattern at given distances, then g_test, k_test or l_test with these distances and a given hull returns a result, for every number of simulations, whenever the simulated patterns can be drawn.", "quantifier": "all patterns, supported metrics, hulls, sorted arrays of distances, numbers of simulations and results of the generators", "why_tests_cant": "the tests fail only for patterns whose simulations collapse to another shape, which a test suite does not try", "anchors": ["pointpats/distance_statistics.py:_ripley_test", "pointpats/distance_statistics.py:_run_one_ripley_simulation", "pointpats/distance_statistics.py:k_test", "pointpats/distance_statistics.py:l_test"]}
{"id": "C156", "title": "A mark is given to the events in the order of its values", "statement": "After add_marks the j-th event has the j-th value of each mark, whether the mark is a list, an array or a pandas Series, for patterns made from arrays, by unique, superimpose or explode.", "quantifier": "all patterns that can be made from arrays with unique, superimpose, explode and add_marks, all marks with one value for each event", "why_tests_cant": "it depends on the labels the rows have kept from earlier operations; a test adds marks to a new pattern, where labels and positions agree", "anchors": ["pointpats/pointpattern.py:PointPattern.add_marks", "pointpats/pointpattern.py:PointPattern.unique", "pointpats/pointpattern.py:PointPattern.superimpose", "pointpats/pointpattern.py:PointPattern.explode"]}
{"id": "C157", "title": "The distance functions are trustworthy in floating point arithmetic", "statement": "Rounding does not change the shape of the curves: the values of f and g are the exact shares up to a relative error of 2^-53, are between 0 and 1, reach 1 exactly where the exact curve does, and comparing values of one pattern or of two patterns gives the answers of exact arithmetic, so that the same simulations are counted by f_test and g_test. j is nan, infinite or zero exactly where the exact J function is, and is truncated at the same distance. The values of k are exact up to a relative error of 2^-50, do not decrease, and grow wherever the exact curve grows.", "quantifier": "all doubles as coordinates and distances, up to 2^53 distances (2^26 for comparisons between patterns, 2^49 pairs for k), barring overflow and underflow", "why_tests_cant": "Rounding could push a share to 1, make 1 - F zero, or merge or swap nearly equal values; tests compare with a tolerance.", "anchors": ["pointpats/distance_statistics.py:f", "pointpats/distance_statistics.py:g", "pointpats/distance_statistics.py:j", "pointpats/distance_statistics.py:k"]}
{"id": "C158", "title": "The simulated quadrat test counts ties, in floating point arithmetic", "statement": "The computed chi-square statistic is not negative, is zero exactly if all cells have the same count, and orders realisations like the exact statistic; in particular a realisation with the same counts in other cells, such as the mirror image of the observed pattern, has the same statistic and is counted in chi2_r_pvalue.", "quantifier": "all arrays of counts with the same total and number of cells (product at most 2^23), every order of summation", "why_tests_cant": "Whether two sums of the same numbers in another order are equal depends on the rounding of every partial sum; tests compare p-values of one seed.", "anchors": ["pointpats/quadrat_statistics.py:QStatistic"]}
{"id": "C159", "title": "modified_knox counts ties, in floating point arithmetic", "statement": "The computed statistic of modified_knox orders permutations of the times like the exact one: a permutation with a larger exact statistic has a larger computed one, and one with the same exact statistic is counted in the p-value.", "quantifier": "all distance matrices of 2 to 2^15 events, all thresholds, all permutations", "why_tests_cant": "Equal exact values come from different sums, and whether their rounded quotients agree depends on every single input; tests compare one data set with a stored p-value.", "anchors": ["pointpats/spacetime.py:modified_knox"]}
{"id": "C160", "title": "k_test and l_test report the same p-values", "statement": "For the same arguments and seeds l_test, linearized or not, fails exactly if k_test does, and otherwise reports the same distances and the same p-values; its statistic and its simulations are the square root transform of those of k_test.", "quantifier": "all patterns, supports, metrics, precomputed distances, hulls, numbers of simulations and random numbers", "why_tests_cant": "Two tests that differ by an increasing transformation should never disagree; tests compare stored p-values of one pattern.", "anchors": ["pointpats/distance_statistics.py:k_test", "pointpats/distance_statistics.py:l_test", "pointpats/distance_statistics.py:l"]}
{"id": "C161", "title": "Which draws shape a cluster of cluster_normal", "statement": "In a pattern that cluster_normal returns for a given covariance matrix, the rows fall into n_seeds clusters whose sizes differ by at most one. Each cluster is its centre followed by the first displaced points that lie in the hull. The displacements of two clusters are independent.", "quantifier": "Every hull, covariance matrix, size with one replication, number of clusters from two, generator and state of the generator from which the call returns; for the chance of a repetition, every number of clusters and independent uniform draws.", "why_tests_cant": "A seeded test sees a few clusters, which nearly always have different integers. That two clusters can be copies of each other, and how often, is a statement about the law of all draws.", "anchors": ["pointpats/random.py:cluster_normal", "pointpats/random.py:normal"]}
{"id": "C162", "title": "The analytical p-values of KnoxLocal are exact", "statement": "For every event, the analytical p-value of KnoxLocal is the share of all rearrangements of the times for which this event has at least as many close events as observed. It is therefore at most a given level for at most that share of the rearrangements.", "quantifier": "Every distance, threshold and list of two or more events, with exact answers of the neighbour search and exact hypergeometric probabilities.", "why_tests_cant": "The number of rearrangements is the factorial of the number of events, and a test compares a rounded p-value with a stored one, not with the enumeration.", "anchors": ["pointpats/spacetime.py:_knox_local", "pointpats/spacetime.py:KnoxLocal"]}
{"id": "C163", "title": "The two kinds of p-value of KnoxLocal test the same hypothesis", "statement": "For every event, the mean over all permutations of the simulated local p-value is that of a test whose exact p-value is the analytical one.", "quantifier": "Every distance, threshold and list of events, every number of permutations.", "why_tests_cant": "A seeded test sees one list of permutations. The mean over all lists, and the difference to the analytical p-value, cannot be sampled exactly.", "anchors": ["pointpats/spacetime.py:_knox_local", "pointpats/spacetime.py:KnoxLocal"]}
{"id": "C164", "title": "The expected table of Knox and the centre of modified_knox", "statement": "Each cell of the expected table of Knox is the mean of the observed cell over all rearrangements of the times. The mean of the statistic of modified_knox over all rearrangements is 0.", "quantifier": "Every distance, threshold and list of two or more events.", "why_tests_cant": "The mean is over all rearrangements, of which there are factorially many, for every list of events.", "anchors": ["pointpats/spacetime.py:_knox", "pointpats/spacetime.py:Knox", "pointpats/spacetime.py:modified_knox"]}
{"id": "C165", "title": "The analytical p-value of Knox is one-sided", "statement": "The analytical p-value of Knox is the probability that a Poisson variable with the expected count as its mean is at least the observed count.", "quantifier": "Every distance, threshold and list of two or more events, with an exact Poisson distribution function.", "why_tests_cant": "A test stores the value that the code computes. Whether the value includes the observed count is only visible for particular data, such as no close pair at all.", "anchors": ["pointpats/spacetime.py:_knox", "pointpats/spacetime.py:Knox"]}
{"id": "C166", "title": "K and L are centred for completely random events", "statement": "For completely random events in a rectangle the mean of k at distance d is the area of the disc with radius d, and the mean of the linearized l is zero, as its documentation says.", "quantifier": "Every rectangle, every number of two or more independent uniform events, every distance.", "why_tests_cant": "The claim is about the mean over all possible patterns, an integral over a continuum. A simulation cannot tell a small bias from noise.", "anchors": ["pointpats/distance_statistics.py:k", "pointpats/distance_statistics.py:l"]}
{"id": "C167", "title": "The Mantel and Jacquez statistics under rearranged times", "statement": "If every assignment of the times to the places is equally likely, the statistic of mantel has mean zero, and that of jacquez has mean n k^2 / (n - 1), so that zero and this number are the values to compare with.", "quantifier": "Every list of three (two) or more events, every distance, every constants and exponents, every number of neighbours, all rearrangements.", "why_tests_cant": "The mean is over all rearrangements, of which there are factorially many, for every list of events.", "anchors": ["pointpats/spacetime.py:mantel", "pointpats/spacetime.py:jacquez"]}
{"id": "C168", "title": "The quadrat statistic of random events is centred on its degrees of freedom", "statement": "For completely random events the mean of the chi-square statistic of QStatistic is the number of degrees of freedom that it reports, one less than the number of cells, as the reported analytical p-value presumes.", "quantifier": "Every number of events and of cells, all assignments of the events to the cells.", "why_tests_cant": "The mean is over all patterns. A test with stored data shows one statistic, and the bias of a few events is lost in the noise of many.", "anchors": ["pointpats/quadrat_statistics.py:QStatistic", "pointpats/quadrat_statistics.py:RectangleM"]}
{"id": "C169", "title": "summary, head and tail show the pattern as it is now", "statement": "Whatever was done to a pattern before, head(k) and tail(n-k) are the first k and the remaining rows of its present table, with the marks added since; summary prints the number of events, their bounding rectangle, the area of the present window, the number of events per unit of that area and the first five rows.", "quantifier": "All tables, all histories of reads, window assignments, added marks and flips, all numbers of rows.", "why_tests_cant": "The methods are bound when the pattern is created and the intensity is stored at its first reading; whether the output is that of the present pattern depends on the whole history.", "anchors": ["pointpats/pointpattern.py:PointPattern.summary", "pointpats/pointpattern.py:PointPattern._facade", "pointpats/pointpattern.py:PointPattern.lambda_window"]}
{"id": "C170", "title": "There is one Euclidean median and euclidean_median returns it", "statement": "Every pattern has exactly one location with the smallest total distance to the events, it lies within their convex hull, and euclidean_median returns it whatever the optimiser does on the way, up to an error governed by the stopping rule.", "quantifier": "All patterns, all optimisers, all tolerances.", "why_tests_cant": "The result of a numerical search is compared with stored digits in a test; that nothing better exists, and that another search would not end elsewhere, is a statement about all locations.", "anchors": ["pointpats/centrography.py:euclidean_median", "pointpats/centrography.py:dtot"]}
{"id": "C171", "title": "The analytical reference of QStatistic fits every study window", "statement": "For completely random events in a study window, the chi-square statistic over cells given beforehand is centred on its reported degrees of freedom whatever share of the window lies in each cell.", "quantifier": "All numbers of events and cells, all divisions of the probability among the cells.", "why_tests_cant": "The excess over the reference appears only as a mean over all patterns and grows with the number of events; a test with one pattern in a rectangle does not show it.", "anchors": ["pointpats/quadrat_statistics.py:QStatistic"]}
{"id": "C172", "title": "The standard distance and the standard deviational ellipse describe the same spread and hold events", "statement": "The squared half axes of ellipse add up to the squared std_distance times the squared factor of the method; the circle with the standard distance round the mean center and the ellipse of every method hold at least one event, and the share of events outside is bounded.", "quantifier": "All patterns with three or more events, all methods and corrections.", "why_tests_cant": "Two functions with different formulas are tied together for all inputs; the share of events is bounded in the worst case, not in stored data.", "anchors": ["pointpats/centrography.py:ellipse", "pointpats/centrography.py:std_distance", "pointpats/centrography.py:mean_center"]}
{"id": "C173", "title": "The chance that KnoxLocal reports any event when there is no interaction is at most the critical value", "statement": "If the times are given to the places at random, the probability that at least one event of KnoxLocal has p_hypergeom at most crit, and so is shown as a hot spot, is at most crit; dividing crit by the number of events is enough to ensure it.", "quantifier": "All lists of events, thresholds, critical values and rearrangements of the times.", "why_tests_cant": "It is a probability over all n! rearrangements; a test sees one data set.", "anchors": ["pointpats/spacetime.py:KnoxLocal", "pointpats/spacetime.py:KnoxLocal.hotspots", "pointpats/spacetime.py:_knox_local"]}
{"id": "C174", "title": "manhattan_median warns exactly when the Manhattan median is not unique", "statement": "If manhattan_median gives no warning, the location it returns is the only one with the smallest total Manhattan distance; if another location is as good, it warns; and it warns only then.", "quantifier": "All patterns and all locations of the plane.", "why_tests_cant": "Uniqueness compares the location returned with every other location of the plane.", "anchors": ["pointpats/centrography.py:manhattan_median"]}
{"id": "C175", "title": "G and K describe the same neighbours", "statement": "At every distance of the support, K times the intensity (the mean number of other events nearer than the distance) is at least G (the share of events with such a neighbour) and at most n - 1 times G, so that K is zero exactly where G is.", "quantifier": "All patterns of two or more events, metrics and supports that cover the nearest neighbour distances.", "why_tests_cant": "It ties two functions with different algorithms (an index query with a histogram, a list of pair distances) for every input.", "anchors": ["pointpats/distance_statistics.py:g", "pointpats/distance_statistics.py:k"]}
{"id": "C176", "title": "The curve of completely random events seldom leaves the band of the simulated curves", "statement": "For completely random events the probability that the curve of g_test, k_test or l_test is above all or below all of its R simulated curves at one or more of N distances is at most 2N / (R + 1).", "quantifier": "All windows, numbers of events, metrics, distances and numbers of simulations, over all random events and generators.", "why_tests_cant": "It is a probability over all patterns and all random streams, for the whole curve at once.", "anchors": ["pointpats/distance_statistics.py:_ripley_test", "pointpats/distance_statistics.py:g_test", "pointpats/distance_statistics.py:k_test", "pointpats/distance_statistics.py:l_test"]}
{"id": "C177", "title": "Adding events never makes the measures of extent, spread or clustering smaller", "statement": "With more events minimum_bounding_rectangle returns a rectangle that holds the one of fewer events, minimum_bounding_circle returns a radius that is not smaller, the statistic of Knox with the same thresholds is not smaller, the smallest total distance from the Euclidean median is not smaller, and std_distance is not smaller.", "quantifier": "all patterns, all patterns that hold the same events and more, all thresholds, all permutations", "why_tests_cant": "The order between two results is over all pairs of nested patterns; a test compares a few.", "anchors": ["pointpats/centrography.py:minimum_bounding_rectangle", "pointpats/centrography.py:minimum_bounding_circle", "pointpats/centrography.py:std_distance", "pointpats/centrography.py:dtot", "pointpats/spacetime.py:Knox"]}
{"id": "C178", "title": "The value of a distance function at a distance does not depend on the other distances asked for", "statement": "For one pattern, if two calls of g, f, k or l evaluate the function at the same distance, they report the same value there, whatever other distances their supports hold.", "quantifier": "all patterns, all pairs of supports, all distances they have in common", "why_tests_cant": "The claim compares every two supports; a test fixes one support.", "anchors": ["pointpats/distance_statistics.py:g", "pointpats/distance_statistics.py:f", "pointpats/distance_statistics.py:k", "pointpats/distance_statistics.py:l"]}
{"id": "C179", "title": "plot draws the events where the pattern has them", "statement": "Whatever was done to a pattern before, PointPattern.plot draws its events at the locations in points, the ones that its bounding box, its default window, its hull and its distances are computed from.", "quantifier": "all tables, all histories of attribute reads, window assignments, add_marks and flip_coordinates calls", "why_tests_cant": "History property: a test follows a few histories.", "anchors": ["pointpats/pointpattern.py:PointPattern.plot", "pointpats/pointpattern.py:PointPattern.flip_coordinates", "pointpats/pointpattern.py:PointPattern.add_marks"]}
{"id": "C180", "title": "The measures of a superimposed pattern follow from those of its parts", "statement": "superimpose gives a pattern whose number of events is the sum of the two numbers, whose mean_center is the mean of the two mean centres weighted with the numbers of events, and whose squared std_distance is the weighted mean of the two squared standard distances plus the contribution of the distance between the mean centres.", "quantifier": "all pairs of patterns with the same columns", "why_tests_cant": "An identity between three results, for all pairs of tables.", "anchors": ["pointpats/pointpattern.py:PointPattern.superimpose", "pointpats/centrography.py:mean_center", "pointpats/centrography.py:std_distance"]}
{"id": "C181", "title": "A finer grid of rectangles splits the counts of a coarser one and never lowers the chi-square statistic", "statement": "When the numbers of columns and rows of a rectangle grid are multiplied by whole numbers, the count of every cell of the coarse grid is the sum of the counts of the cells into which it is divided, also for events on inner edges and on the last edge. QStatistic on the finer grid returns a chi-square statistic at least as large, with degrees of freedom one less than the larger number of cells.", "quantifier": "all patterns of positive extent, all positive numbers of columns and rows and all positive whole multipliers", "why_tests_cant": "A relation between two runs that must hold for every position of an event against the edges and for every pair of grids.", "anchors": ["pointpats/quadrat_statistics.py:RectangleM.point_location_sta", "pointpats/quadrat_statistics.py:QStatistic"]}
{"id": "C182", "title": "Asking for more neighbours never removes a neighbour", "statement": "The neighbours that PointPattern.knn(k) lists for an event are the first k of those that it lists for a larger number, and the statistic of jacquez never gets smaller when k grows. The statistic for k neighbours of n events lies between n * (2k - (n - 1)) and n * k, so that it is n * (n - 1) when all other events are neighbours.", "quantifier": "all patterns, all numbers of neighbours and all correct ways in which an index can break ties", "why_tests_cant": "A relation between answers to different questions, for every set of distances and every tie-breaking.", "anchors": ["pointpats/pointpattern.py:PointPattern.knn", "pointpats/spacetime.py:jacquez"]}
{"id": "C183", "title": "Superimposing several patterns does not depend on the grouping, and undoes explode", "statement": "Superimposing the third of three patterns on the first two gives the same pattern, or the same error, as superimposing the last two on the first. Superimposing the parts that explode makes of a pattern, one after the other, gives a pattern with the same columns and the same events, each once as in unique as soon as there is more than one part.", "quantifier": "all patterns, reached by any history of operations, and all columns", "why_tests_cant": "An algebraic law over all triples of patterns, and a round trip over all tables and columns.", "anchors": ["pointpats/pointpattern.py:PointPattern.superimpose", "pointpats/pointpattern.py:PointPattern.explode", "pointpats/pointpattern.py:PointPattern.unique"]}
{"id": "C184", "title": "The centres of a pattern lie among its events and near each other", "statement": "mean_center, weighted_mean_center with weights that are not negative, euclidean_median and manhattan_median lie in the convex hull of the events. The two medians are at most the standard distance away from the mean centre. std_distance is at most the radius of every circle that holds all events.", "quantifier": "all patterns with at least one event, all weights that are not negative with a positive sum, all circles that hold the events", "why_tests_cant": "Geometric relations between different measures, for every configuration of events.", "anchors": ["pointpats/centrography.py:mean_center", "pointpats/centrography.py:weighted_mean_center", "pointpats/centrography.py:manhattan_median", "pointpats/centrography.py:euclidean_median", "pointpats/centrography.py:std_distance"]}
{"id": "C185", "title": "The convex hull of the events has a positive area, never more than their bounding box", "statement": "For a PointPattern whose events are not all on one line, hull_area is positive and at most mbb_area, whatever was read or updated before; hence lambda_mbb is a positive number not above lambda_hull, and a pattern built without a window reports a lambda_window not above lambda_hull. The function area of pointpats.geometry gives the same order for the hull and the bounding box of an array of points.", "quantifier": "every table of events, every hull ring with at least three of the events as vertices in strict counter-clockwise order (what scipy's ConvexHull returns), every history of reads and updates", "why_tests_cant": "The area of an arbitrary convex polygon is compared with its box; a unit test compares the numbers of one example pattern.", "anchors": ["pointpats/pointpattern.py:hull_area", "pointpats/pointpattern.py:lambda_hull", "pointpats/pointpattern.py:lambda_mbb", "pointpats/pointpattern.py:lambda_window", "pointpats/geometry.py:area"]}
{"id": "C186", "title": "hull_area is the area of the convex hull of the events", "statement": "For a PointPattern whose events are not all on one line, hull_area is the area (Lebesgue measure in the plane) of the smallest convex set that holds the events, and lambda_hull the number of events per unit of that area, whatever was read or updated before. A pattern with more events never has a smaller hull_area, and has the same hull_area when the further events are in the hull of the others. hull_area is at most the area of any disc that holds the events. The function area of pointpats.geometry gives the same number for the hull of an array of points.", "quantifier": "every table of events, every hull ring with at least three of the events as vertices in strict counter-clockwise order and all events in its convex hull (what scipy's ConvexHull returns), every second table with more events, every disc that holds the events, every history of reads and updates", "why_tests_cant": "Says that a sum over vertices measures a set of the plane, for polygons with any number of vertices; a test compares the sum with a known number for one example.", "anchors": ["pointpats/pointpattern.py:hull_area", "pointpats/pointpattern.py:lambda_hull", "pointpats/geometry.py:area"]}
{"id": "C187", "title": "contains, area and bbox describe one region, on which poisson is uniform", "statement": "For the ConvexHull of some points, contains accepts exactly the points of their convex hull, area is the area (Lebesgue measure) of that set and bbox the smallest box that holds it; for a convex polygon contains accepts exactly the interior, and area is the area of what it accepts; for a bounding box contains accepts the closed rectangle, and area is its area. The points that poisson draws in the hull are independent and uniform on the convex hull of the points: the probability that they fall in given sets is the product of the areas of the parts of the sets in the hull, per area(hull).", "quantifier": "every set of points with a convex hull, every convex polygon, every ordered bounding box, every size and intensity, every measurable sets, independent uniform draws", "why_tests_cant": "Three functions are compared with one set of the plane, for polygons with any number of vertices and for all points; distributions are not observable in a run.", "anchors": ["pointpats/geometry.py:contains", "pointpats/geometry.py:area", "pointpats/geometry.py:bbox", "pointpats/random.py:poisson"]}
{"id": "C188", "title": "lambda_window over convex polygons with holes, and below lambda_hull for a convex window", "statement": "For a window of convex polygons that do not overlap, with convex holes in them, lambda_window is the number of events divided by the area (Lebesgue measure) of what the window covers, the holes left out, whatever the first corner and the direction of the rings and also after as_window. When the window is one convex polygon that holds all events, lambda_window is positive and not above lambda_hull.", "quantifier": "every pattern, every list of convex polygons and convex holes, every listing of their rings", "why_tests_cant": "The polygons have any number of corners, and areas of sets of the plane are compared; a test evaluates one window.", "anchors": ["pointpats/pointpattern.py:lambda_window", "pointpats/pointpattern.py:lambda_hull", "pointpats/window.py:Window", "pointpats/window.py:as_window"]}
{"id": "C189", "title": "The centroid of a region lies in the region", "statement": "contains(region, *centroid(region)) is True for every ordered bounding box, every ConvexHull and every convex polygon, whatever the first corner and the direction of its ring.", "quantifier": "every bounding box, hull and convex polygon, with any number of corners", "why_tests_cant": "The centroid is a quotient of sums over all edges and membership a test of every edge; a test evaluates one region.", "anchors": ["pointpats/geometry.py:centroid", "pointpats/geometry.py:contains", "pointpats/random.py:normal"]}
{"id": "C190", "title": "The centroid of a region is the mean position of its points", "statement": "centroid(region) is the mean position, with respect to area, of the points of the plane for which contains(region, x, y) is True, for bounding boxes, ConvexHulls and convex polygons, in either direction of the ring.", "quantifier": "every bounding box, hull and convex polygon, with any number of corners", "why_tests_cant": "The mean of a set of the plane is an integral; a test can only compare numbers for one region.", "anchors": ["pointpats/geometry.py:centroid", "pointpats/geometry.py:contains"]}
{"id": "C191", "title": "mean_center of simulated points is an unbiased estimate of the centroid", "statement": "With independent draws that are uniform on [0, 1), poisson in a bounding box, a ConvexHull or a convex polygon returns with probability one, and the expectation of mean_center of the points it draws is the mean position of the points of the region, for every size, intensity and number of replications that gives at least one point. For boxes and polygons it is centroid(region).", "quantifier": "every bounding box, hull and convex polygon, every size and intensity, all random draws", "why_tests_cant": "An expectation over all draws of the generator; a test sees finitely many seeds.", "anchors": ["pointpats/random.py:poisson", "pointpats/centrography.py:mean_center", "pointpats/geometry.py:centroid", "pointpats/geometry.py:contains"]}
{"id": "C192", "title": "mean_center and std_distance of completely random events estimate the position and the spread of the region", "statement": "For n independent events that are uniform in a bounded region, the expectation of mean_center is the mean position of the points of the region and the expectation of the square of std_distance is their mean squared distance from it. mean_center is off by the spread divided by n on average (mean squared distance).", "quantifier": "every bounded region with a positive area, every number of events, all outcomes", "why_tests_cant": "An expectation over all patterns; a test sees finitely many patterns.", "anchors": ["pointpats/centrography.py:mean_center", "pointpats/centrography.py:std_distance"]}
{"id": "C193", "title": "The hull of simulated points lies in the region they were simulated in", "statement": "Whenever poisson, normal, strauss (at least one iteration), cluster_poisson or cluster_normal (at least two seeds) returns points for a bounding box, a ConvexHull or a convex polygon, the convex hull of all returned points lies in the region, its area is not above the area of the region, and the bounding box of the points lies in the bounding box of the region. A PointPattern of points that are all in the region has, whatever was read or updated before, a hull_area not above the area of the region, so that lambda_hull is never below the number of events per unit of area of the region, and an mbb_area not above the area of the bounding box of the region.", "quantifier": "all convex regions with an area, all sizes, intensities and other arguments, all random streams, all histories of the pattern", "why_tests_cant": "It relates two areas for every outcome of rejection loops that have no bound, and rests on a geometric argument over all convex regions.", "anchors": ["pointpats/random.py:poisson", "pointpats/random.py:normal", "pointpats/random.py:strauss", "pointpats/random.py:cluster_poisson", "pointpats/random.py:cluster_normal", "pointpats/pointpattern.py:PointPattern.hull_area", "pointpats/pointpattern.py:PointPattern.lambda_hull", "pointpats/pointpattern.py:PointPattern.mbb_area"]}
{"id": "C194", "title": "With more points mean_center of simulated points comes as near to the centroid as asked", "statement": "For points that poisson draws in a bounding box, a ConvexHull or a convex polygon, the probability that mean_center of the points is a distance eps or more from the mean position of the points of the region (which is centroid(region) for boxes and polygons) is at most the squared diagonal of the region's bounding box divided by 4 * n * eps**2, n the number of points. So it goes to zero as the number of points grows.", "quantifier": "all convex regions with an area, all sizes, intensities and distances, all outcomes of independent uniform draws", "why_tests_cant": "A statement on a probability over all random streams and a limit in the number of points.", "anchors": ["pointpats/random.py:poisson", "pointpats/centrography.py:mean_center", "pointpats/geometry.py:centroid"]}
{"id": "C195", "title": "The number of simulated points in a part of the region is binomial", "statement": "For points that poisson draws in a region (bounding box, ConvexHull or convex polygon), the number of points that contains accepts for another such region has the binomial distribution with as many trials as points, and with the chance of success area(common part) / area(region); that is area(part) / area(region) when the part lies in the region.", "quantifier": "all pairs of convex regions with an area, all sizes and intensities, all outcomes of independent uniform draws", "why_tests_cant": "A distribution over all random streams; a test sees finitely many counts.", "anchors": ["pointpats/random.py:poisson", "pointpats/geometry.py:contains", "pointpats/geometry.py:area"]}
{"id": "C196", "title": "The distance from a location to the nearest simulated point has the distribution of a random pattern", "statement": "For N points that poisson draws in a bounding box, a ConvexHull or a convex polygon, the probability that every point is a distance d or more from a given location is (1 - pi * d**2 / area(region)) ** N when the disc of radius d round the location lies in the region, and at least that for every location and every d with pi * d**2 <= area(region).", "quantifier": "all convex regions with an area, all sizes and intensities, all locations and distances, all outcomes of independent uniform draws", "why_tests_cant": "A probability over all random streams, with a case distinction at the edge of every region.", "anchors": ["pointpats/random.py:poisson", "pointpats/geometry.py:area", "pointpats/geometry.py:contains"]}
{"id": "C197", "title": "A simulated point is likely to be isolated at short distances", "statement": "For N points that poisson draws in a bounding box, a ConvexHull or a convex polygon, and a distance d with pi * d**2 <= area(region), the probability that all other points are d or more away from a given one of them is at least (1 - pi * d**2 / area(region)) ** (N - 1).", "quantifier": "all convex regions with an area, all sizes and intensities, all points of the result and distances, all outcomes of independent uniform draws", "why_tests_cant": "A probability over all random streams, for a neighbourhood whose centre is itself random.", "anchors": ["pointpats/random.py:poisson", "pointpats/geometry.py:area", "pointpats/geometry.py:contains"]}

{
 "desi/covariance_from_desi_sv3_cutsky.py:main program": "command line, plots, writing of files and calls of pycorr are left out",
 "desi/from_box_to_desi_cutsky.py:main program": "from the remapped box on: `Verif/Model/Survey.lean`; command line, reading of the box, formats of files and log messages are left out",
 "desi/from_box_to_desi_sv3_cutsky.py:main program": "command line, reading of mock catalogs and plots are left out",
 "mockfactory/blinding/catalog.py:CutskyCatalogBlinding.__init__": "stores its arguments; they are arguments of the modelled methods",
 "mockfactory/desi/brick_pixel_quantities.py:main program": "example",
 "mockfactory/desi/footprint.py:main program": "example",
 "mockfactory/desi/redshift_smearing.py:main program": "plot",
 "mockfactory/desi/fiber_assignment.py:_run_assign_init": "conversion of targets by fiberassign is external",
 "mockfactory/desi/fiber_assignment.py:_run_assign_full": "the assignment itself is external",
 "mockfactory/remap.py:_make_array": "same code as in `make_survey.py`",
 "mockfactory/remap.py:Cell.__repr__": "display",
 "mockfactory/utils.py:is_sequence": "type test; the cases are separate in the types of arguments",
 "mockfactory/utils.py:trunccauchy_gen._attach_argparser_methods": "hook of scipy; its effect is `_rescaling_parser`",
 "mockfactory/utils.py:truncnorm_gen._attach_argparser_methods": "hook of scipy; its effect is `_rescaling_parser`",
 "mockfactory/gaussian_mock.py:SetterProperty.__init__": "python descriptor",
 "mockfactory/gaussian_mock.py:SetterProperty.__set__": "python descriptor",
 "mockfactory/gaussian_mock.py:BaseGaussianMock.is_mpi_root": "only used for messages",
 "mockfactory/gaussian_mock.py:BaseGaussianMock.boxsize": "field of `Mesh`",
 "mockfactory/gaussian_mock.py:BaseGaussianMock.nmesh": "field of `Mesh`",
 "mockfactory/gaussian_mock.py:BaseGaussianMock.ndim": "always 3",
 "mockfactory/gaussian_mock.py:BaseGaussianMock.boxcenter": "field of `Mesh`",
 "mockfactory/make_survey.py:BaseMask.__init__": "stores the communicator",
 "mockfactory/make_survey.py:BaseMask.is_mpi_root": "only used for messages and reading of files",
 "mockfactory/make_survey.py:BaseMask.prob": "abstract",
 "mockfactory/make_survey.py:UniformRadialMask.__init__": "stores its argument",
 "mockfactory/make_survey.py:UniformAngularMask.__init__": "stores its argument",
 "mockfactory/make_survey.py:MangleAngularMask.__init__": "reads a file with an external package",
 "mockfactory/make_survey.py:HealpixAngularMask.__init__": "reads a file with an external package",
 "mockfactory/make_survey.py:Base2DRedshiftSmearing.__init__": "stores the communicator",
 "mockfactory/make_survey.py:Base2DRedshiftSmearing.is_mpi_root": "only used to choose the rank that gives the arrays",
 "mockfactory/desi/fiber_assignment_v0.py:main program": "example run of functions that are modelled, on fixed files; its call `read_sky_targets(..., program=program)`, not reached with the settings of the file, passes a keyword that the function does not have",
 "mockfactory/utils.py:distance": "norm of vectors, `Verif/Basic`",
 "mockfactory/utils.py:trunccauchy_gen._get_support": "returns its arguments"
}